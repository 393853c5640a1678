import Verif.Flash

/-!
# Simulation of bootloader code

Proof technique for `Verif.NvmUpdateThms`: a run of one program is matched by a run of another one, the flash contents being related before and after, and
when the power fails. The vocabulary of the statements is not in this file.
-/

namespace Verif

namespace Nvu

/-- An uninterrupted run of `m` from `A` returns `a` and leaves `A'`, after a fixed number of flash operations. -/
def Exec {α} (m : M α) (l : Bool) (A : Flash) (a : α) (A' : Flash) (l' : Bool) : Prop :=
  ∃ j, ∀ t, m ⟨A, l, none, t⟩ = .ok a ⟨A', l', none, t⟩ ∧ ∀ b, m ⟨A, l, some (j + b), t⟩ = .ok a ⟨A', l', some b, t⟩

/-- A power failure during `m` can leave `A'`. -/
def CrashTo {α} (T : Mem → Prop) (m : M α) (l : Bool) (A A' : Flash) : Prop :=
  ∃ b t, T t ∧ m ⟨A, l, some b, t⟩ = .crash A'

/-- The uninterrupted run of `m` panics, does not end or violates the rules of the flash. -/
def Bad {α} (m : M α) (l : Bool) (A : Flash) : Prop :=
  ∀ t, ∃ f, m ⟨A, l, none, t⟩ = .panic f ∨ m ⟨A, l, none, t⟩ = .stuck f ∨ m ⟨A, l, none, t⟩ = .fault f

/-- Runs of `mc` are matched by runs of `ma`, unless `ma` fails. `s`: an interrupted run may be matched by a complete one. -/
def Sim {α} (T N : Mem → Prop) (R : Flash → Flash → Prop) (s : Bool) (l : Bool) (P : Flash → Flash → Prop) (ma mc : M α) (l' : Bool)
    (Q : α → Flash → Flash → Prop) : Prop :=
  ∀ A F b t, N t → P A F → Bad ma l A ∨
    match mc ⟨F, l, b, t⟩ with
    | .ok a w => w.locked = l' ∧ w.torn = t ∧ (b = none → w.budget = none) ∧ ∃ A', Exec ma l A a A' l' ∧ Q a A' w.fl
    | .crash F' => b ≠ none ∧ ∃ A', R A' F' ∧ (CrashTo T ma l A A' ∨ (s = true ∧ ∃ a, Exec ma l A a A' l'))
    | _ => False

section
variable {α β : Type} {T N : Mem → Prop} {R : Flash → Flash → Prop} {s : Bool} {l l' l'' : Bool} {P P' : Flash → Flash → Prop}

theorem Exec.pure (a : α) (A : Flash) (l : Bool) : Exec (Pure.pure a : M α) l A a A l :=
  ⟨0, fun t => ⟨rfl, fun b => by rw [Nat.zero_add]; rfl⟩⟩

theorem bind_ok {m : M α} {k : α → M β} {w w' : World} {a : α} (h : m w = .ok a w') : (m >>= k) w = k a w' := by
  show M.bind m k w = _
  unfold M.bind
  rw [h]

theorem bind_crash {m : M α} {k : α → M β} {w : World} {f : Flash} (h : m w = .crash f) : (m >>= k) w = .crash f := by
  show M.bind m k w = _
  unfold M.bind
  rw [h]

theorem bind_panic {m : M α} {k : α → M β} {w : World} {f : Flash} (h : m w = .panic f) : (m >>= k) w = .panic f := by
  show M.bind m k w = _
  unfold M.bind
  rw [h]

theorem bind_stuck {m : M α} {k : α → M β} {w : World} {f : Flash} (h : m w = .stuck f) : (m >>= k) w = .stuck f := by
  show M.bind m k w = _
  unfold M.bind
  rw [h]

theorem bind_fault {m : M α} {k : α → M β} {w : World} {f : Flash} (h : m w = .fault f) : (m >>= k) w = .fault f := by
  show M.bind m k w = _
  unfold M.bind
  rw [h]

theorem Exec.bind {m : M α} {k : α → M β} {A A' A'' : Flash} {a : α} {b : β} (h1 : Exec m l A a A' l') (h2 : Exec (k a) l' A' b A'' l'') :
    Exec (m >>= k) l A b A'' l'' := by
  obtain ⟨j1, h1⟩ := h1
  obtain ⟨j2, h2⟩ := h2
  refine ⟨j1 + j2, fun t => ⟨?_, fun n => ?_⟩⟩
  · rw [bind_ok (h1 t).1]; exact (h2 t).1
  · rw [Nat.add_assoc, bind_ok ((h1 t).2 _)]; exact (h2 t).2 n

theorem CrashTo.bind1 {m : M α} {k : α → M β} {A A' : Flash} (h : CrashTo T m l A A') : CrashTo T (m >>= k) l A A' := by
  obtain ⟨b, t, ht, h⟩ := h
  exact ⟨b, t, ht, bind_crash h⟩

theorem CrashTo.bind2 {m : M α} {k : α → M β} {A A' A'' : Flash} {a : α} (h1 : Exec m l A a A' l') (h2 : CrashTo T (k a) l' A' A'') :
    CrashTo T (m >>= k) l A A'' := by
  obtain ⟨j, h1⟩ := h1
  obtain ⟨b, t, ht, h2⟩ := h2
  exact ⟨j + b, t, ht, by rw [bind_ok ((h1 t).2 b)]; exact h2⟩

theorem Bad.bind1 {m : M α} {k : α → M β} {A : Flash} (h : Bad m l A) : Bad (m >>= k) l A := by
  intro t
  obtain ⟨f, h | h | h⟩ := h t
  · exact ⟨f, .inl (bind_panic h)⟩
  · exact ⟨f, .inr (.inl (bind_stuck h))⟩
  · exact ⟨f, .inr (.inr (bind_fault h))⟩

theorem Bad.bind2 {m : M α} {k : α → M β} {A A' : Flash} {a : α} (h1 : Exec m l A a A' l') (h2 : Bad (k a) l' A') : Bad (m >>= k) l A := by
  obtain ⟨j, h1⟩ := h1
  intro t
  obtain ⟨f, h⟩ := h2 t
  refine ⟨f, ?_⟩
  rw [bind_ok (h1 t).1]
  exact h

/-- What a triple says of an uninterrupted run. -/
theorem Exec.post {m : M α} {A A' : Flash} {a : α} {PA : Flash → Prop} {QA : α → Flash → Prop} {C : Flash → Prop} (h : Exec m l A a A' l')
    (ht : Triple T l PA m l'' QA C) (hT : ∃ t, T t) (hA : PA A) : QA a A' := by
  obtain ⟨j, h⟩ := h
  obtain ⟨t, hT⟩ := hT
  have := ht ⟨A, l, none, t⟩ hT rfl hA
  rw [(h t).1] at this
  exact this.2.2.2

theorem Bad.no {m : M α} {A : Flash} {PA : Flash → Prop} {QA : α → Flash → Prop} {C : Flash → Prop} (h : Bad m l A)
    (ht : Triple T l PA m l'' QA C) (hT : ∃ t, T t) (hA : PA A) : False := by
  obtain ⟨t, hT⟩ := hT
  have := ht ⟨A, l, none, t⟩ hT rfl hA
  obtain ⟨f, h | h | h⟩ := h t <;> rw [h] at this <;> exact this

namespace Sim

variable {Q Q' : α → Flash → Flash → Prop} {ma mc : M α}

theorem conseq (h : Sim T N R s l P ma mc l' Q) (hP : ∀ A F, P' A F → P A F) (hQ : ∀ a A F, Q a A F → Q' a A F) : Sim T N R s l P' ma mc l' Q' := by
  intro A F b t ht hp
  rcases h A F b t ht (hP A F hp) with h | h
  · exact .inl h
  · right
    cases hm : mc ⟨F, l, b, t⟩ with
    | ok a w =>
      rw [hm] at h
      obtain ⟨h1, h2, h3, A', h4, h5⟩ := h
      exact ⟨h1, h2, h3, A', h4, hQ _ _ _ h5⟩
    | crash f => rw [hm] at h; exact h
    | panic f => rw [hm] at h; exact h
    | stuck f => rw [hm] at h; exact h
    | fault f => rw [hm] at h; exact h

theorem pre (h : Sim T N R s l P ma mc l' Q) (hP : ∀ A F, P' A F → P A F) : Sim T N R s l P' ma mc l' Q := h.conseq hP fun _ _ _ h => h

/-- An interrupted run may be matched by a complete one. -/
theorem late (h : Sim T N R false l P ma mc l' Q) : Sim T N R s l P ma mc l' Q := by
  intro A F b t ht hp
  rcases h A F b t ht hp with h | h
  · exact .inl h
  · right
    cases hm : mc ⟨F, l, b, t⟩ with
    | ok a w => rw [hm] at h; exact h
    | crash f =>
      rw [hm] at h
      obtain ⟨h1, A', h2, h3 | h3⟩ := h
      · exact ⟨h1, A', h2, .inl h3⟩
      · exact absurd h3.1 (by simp)
    | panic f => rw [hm] at h; exact h
    | stuck f => rw [hm] at h; exact h
    | fault f => rw [hm] at h; exact h

theorem pure (a : α) : Sim T N R s l (Q a) (Pure.pure a) (Pure.pure a) l Q :=
  fun A F b t _ hp => .inr ⟨rfl, rfl, id, A, Exec.pure a A l, hp⟩

theorem bind {ka kc : α → M β} {S : β → Flash → Flash → Prop} (h1 : Sim T N R false l P ma mc l' Q)
    (h2 : ∀ a, Sim T N R s l' (Q a) (ka a) (kc a) l'' S) : Sim T N R s l P (ma >>= ka) (mc >>= kc) l'' S := by
  intro A F b t ht hp
  rcases h1 A F b t ht hp with h | h
  · exact .inl h.bind1
  · cases hm : mc ⟨F, l, b, t⟩ with
    | ok a w =>
      rw [hm] at h
      obtain ⟨h3, h4, h5, A', h6, h7⟩ := h
      obtain ⟨fl, lk, bu, to⟩ := w
      dsimp only at h3 h4 h5 h7
      subst h3 h4
      rw [bind_ok hm]
      rcases h2 a A' fl bu to ht h7 with g | g
      · exact .inl (Bad.bind2 h6 g)
      · right
        cases hk : kc a ⟨fl, lk, bu, to⟩ with
        | ok b' w' =>
          rw [hk] at g
          obtain ⟨g1, g2, g3, A'', g4, g5⟩ := g
          exact ⟨g1, g2, fun h => g3 (h5 h), A'', h6.bind g4, g5⟩
        | crash f =>
          rw [hk] at g
          obtain ⟨g1, A'', g2, g3 | ⟨g3, b', g4⟩⟩ := g
          · exact ⟨fun h => g1 (h5 h), A'', g2, .inl (CrashTo.bind2 h6 g3)⟩
          · exact ⟨fun h => g1 (h5 h), A'', g2, .inr ⟨g3, b', h6.bind g4⟩⟩
        | panic f => rw [hk] at g; exact g
        | stuck f => rw [hk] at g; exact g
        | fault f => rw [hk] at g; exact g
    | crash f =>
      rw [hm] at h
      rw [bind_crash hm]
      obtain ⟨h3, A', h4, h5 | h5⟩ := h
      · exact .inr ⟨h3, A', h4, .inl h5.bind1⟩
      · exact absurd h5.1 (by simp)
    | panic f => rw [hm] at h; exact h.elim
    | stuck f => rw [hm] at h; exact h.elim
    | fault f => rw [hm] at h; exact h.elim

/-- Sequence whose first part may be matched by a complete run, the second one being able to fail before it changes anything. -/
theorem bindLate {ka kc : α → M β} {S : β → Flash → Flash → Prop} (h1 : Sim T N R true l P ma mc l' Q)
    (hi : ∀ A F a A', P A F → Exec ma l A a A' l' →
      (∃ t, T t ∧ ka a ⟨A', l', some 0, t⟩ = .crash A') ∨ (s = true ∧ ∃ b, Exec (ka a) l' A' b A' l''))
    (h2 : ∀ a, Sim T N R s l' (Q a) (ka a) (kc a) l'' S) : Sim T N R s l P (ma >>= ka) (mc >>= kc) l'' S := by
  intro A F b t ht hp
  rcases h1 A F b t ht hp with h | h
  · exact .inl h.bind1
  · cases hm : mc ⟨F, l, b, t⟩ with
    | ok a w =>
      rw [hm] at h
      obtain ⟨h3, h4, h5, A', h6, h7⟩ := h
      obtain ⟨fl, lk, bu, to⟩ := w
      dsimp only at h3 h4 h5 h7
      subst h3 h4
      rw [bind_ok hm]
      rcases h2 a A' fl bu to ht h7 with g | g
      · exact .inl (Bad.bind2 h6 g)
      · right
        cases hk : kc a ⟨fl, lk, bu, to⟩ with
        | ok b' w' =>
          rw [hk] at g
          obtain ⟨g1, g2, g3, A'', g4, g5⟩ := g
          exact ⟨g1, g2, fun h => g3 (h5 h), A'', h6.bind g4, g5⟩
        | crash f =>
          rw [hk] at g
          obtain ⟨g1, A'', g2, g3 | ⟨g3, b', g4⟩⟩ := g
          · exact ⟨fun h => g1 (h5 h), A'', g2, .inl (CrashTo.bind2 h6 g3)⟩
          · exact ⟨fun h => g1 (h5 h), A'', g2, .inr ⟨g3, b', h6.bind g4⟩⟩
        | panic f => rw [hk] at g; exact g
        | stuck f => rw [hk] at g; exact g
        | fault f => rw [hk] at g; exact g
    | crash f =>
      rw [hm] at h
      rw [bind_crash hm]
      obtain ⟨h3, A', h4, h5 | ⟨_, a, h5⟩⟩ := h
      · exact .inr ⟨h3, A', h4, .inl h5.bind1⟩
      · rcases hi A F a A' hp h5 with ⟨t', ht', g⟩ | ⟨g, b', g'⟩
        · exact .inr ⟨h3, A', h4, .inl (CrashTo.bind2 h5 ⟨0, t', ht', g⟩)⟩
        · exact .inr ⟨h3, A', h4, .inr ⟨g, b', h5.bind g'⟩⟩
    | panic f => rw [hm] at h; exact h.elim
    | stuck f => rw [hm] at h; exact h.elim
    | fault f => rw [hm] at h; exact h.elim

/-- A triple about the first program adds to the postcondition. -/
theorem triple {PA : Flash → Prop} {QA : α → Flash → Prop} {C : Flash → Prop} (h : Sim T N R s l P ma mc l' Q) (ht : Triple T l PA ma l'' QA C)
    (hT : ∃ t, T t) (hp : ∀ A F, P' A F → P A F ∧ PA A) : Sim T N R s l P' ma mc l' (fun a A F => Q a A F ∧ QA a A) := by
  intro A F b t htn hp'
  obtain ⟨hp1, hp2⟩ := hp A F hp'
  rcases h A F b t htn hp1 with h | h
  · exact .inl h
  · right
    cases hm : mc ⟨F, l, b, t⟩ with
    | ok a w =>
      rw [hm] at h
      obtain ⟨h1, h2, h3, A', h4, h5⟩ := h
      exact ⟨h1, h2, h3, A', h4, h5, h4.post ht hT hp2⟩
    | crash f => rw [hm] at h; exact h
    | panic f => rw [hm] at h; exact h
    | stuck f => rw [hm] at h; exact h
    | fault f => rw [hm] at h; exact h

/-- The first program reads the flash. -/
theorem readA {ka : Flash → M α} (h : ∀ A, Sim T N R s l (fun A' F => A' = A ∧ P A' F) (ka A) mc l' Q) :
    Sim T N R s l P (readFlash >>= ka) mc l' Q :=
  fun A F b t ht hp => h A A F b t ht ⟨rfl, hp⟩

/-- The second program reads the flash. -/
theorem readC {kc : Flash → M α} (h : ∀ F, Sim T N R s l (fun A F' => F' = F ∧ P A F') ma (kc F) l' Q) :
    Sim T N R s l P ma (readFlash >>= kc) l' Q :=
  fun A F b t ht hp => h F A F b t ht ⟨rfl, hp⟩

/-- Fix both flash contents. -/
theorem ofEq (h : ∀ A F, P A F → Sim T N R s l (fun A' F' => A' = A ∧ F' = F) ma mc l' Q) : Sim T N R s l P ma mc l' Q :=
  fun A F b t ht hp => h A F hp A F b t ht ⟨rfl, rfl⟩

/-- The second program observes the flash without changing anything. -/
theorem obs {kc : β → M α} {m : M β} (v : Flash → β) (h1 : ∀ A F b t, P A F → m ⟨F, l, b, t⟩ = .ok (v F) ⟨F, l, b, t⟩)
    (h : ∀ F, Sim T N R s l (fun A F' => F' = F ∧ P A F') ma (kc (v F)) l' Q) : Sim T N R s l P ma (m >>= kc) l' Q := by
  intro A F b t ht hp
  rw [bind_ok (h1 A F b t hp)]
  exact h F A F b t ht ⟨rfl, hp⟩

theorem unlock : Sim T N R s l P Verif.unlock Verif.unlock false (fun _ => P) :=
  fun A F b t _ hp => .inr ⟨rfl, rfl, id, A, ⟨0, fun t => ⟨rfl, fun b => by rw [Nat.zero_add]; rfl⟩⟩, hp⟩

theorem lock : Sim T N R s l P Verif.lock Verif.lock true (fun _ => P) :=
  fun A F b t _ hp => .inr ⟨rfl, rfl, id, A, ⟨0, fun t => ⟨rfl, fun b => by rw [Nat.zero_add]; rfl⟩⟩, hp⟩

theorem stuck {mc : M α} : Sim T N R s l P stuckM mc l' Q :=
  fun A F b t _ hp => .inl fun t => ⟨A, .inr (.inl rfl)⟩

theorem ite {ba bc : Prop} [Decidable ba] [Decidable bc] {ma' mc' : M α} (hb : ba ↔ bc) (h1 : ba → Sim T N R s l P ma mc l' Q)
    (h2 : ¬ ba → Sim T N R s l P ma' mc' l' Q) : Sim T N R s l P (if ba then ma else ma') (if bc then mc else mc') l' Q := by
  by_cases h : ba
  · rw [if_pos h, if_pos (hb.1 h)]; exact h1 h
  · rw [if_neg h, if_neg (fun g => h (hb.2 g))]; exact h2 h

/-- Flash operations that correspond to each other, the flash being unlocked. -/
theorem flashOp {opA tornA opC tornC : Mem → Flash → Flash} {Q : Unit → Flash → Flash → Prop} (hA : ∀ t t' A, opA t A = opA t' A)
    (hQ : ∀ t A F, P A F → Q () (opA t A) (opC t F))
    (hC : ∀ t A F, N t → P A F → ∃ t', T t' ∧ R (tornA t' A) (tornC t F)) :
    Sim T N R s false P (Verif.flashOp opA tornA) (Verif.flashOp opC tornC) false Q := by
  intro A F b t ht hp
  right
  have he : Exec (Verif.flashOp opA tornA) false A () (opA t A) false := by
    refine ⟨1, fun t' => ⟨?_, fun b => ?_⟩⟩
    · rw [hA t t']; rfl
    · rw [hA t t', Nat.add_comm]; rfl
  rcases b with _ | _ | b
  · exact ⟨rfl, rfl, id, _, he, hQ t A F hp⟩
  · obtain ⟨t', h1, h2⟩ := hC t A F ht hp
    exact ⟨by simp, _, h2, .inl ⟨0, t', h1, rfl⟩⟩
  · exact ⟨rfl, rfl, by simp, _, he, hQ t A F hp⟩

theorem tick (hR : ∀ A F, P A F → R A F) (hT : ∃ t, T t) : Sim T N R s l P Verif.tick Verif.tick l (fun _ => P) := by
  intro A F b t ht hp
  right
  have he : Exec Verif.tick l A () A l := by
    cases l <;> exact ⟨1, fun t' => ⟨rfl, fun b => by rw [Nat.add_comm]; rfl⟩⟩
  obtain ⟨t', ht'⟩ := hT
  rcases b with _ | _ | b <;> cases l
  · exact ⟨rfl, rfl, id, _, he, hp⟩
  · exact ⟨rfl, rfl, id, _, he, hp⟩
  · exact ⟨by simp, A, hR A F hp, .inl ⟨0, t', ht', rfl⟩⟩
  · exact ⟨by simp, A, hR A F hp, .inl ⟨0, t', ht', rfl⟩⟩
  · exact ⟨rfl, rfl, by simp, _, he, hp⟩
  · exact ⟨rfl, rfl, by simp, _, he, hp⟩

end Sim

end

end Nvu

end Verif
