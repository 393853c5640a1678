import Verif.ArmorVersion

/-!
# C55: the permission of a key and the result of an RSA operation under skipped instructions
-/

namespace Verif.Armor

set_option linter.unusedSimpArgs false

/-! ## The permission of a key -/

/-- The bit of the key, as the instructions compute it. -/
def bitOf (k : W) : W := shl 1#32 k

theorem bitOf_and (k mask : W) (h : k.toNat < 32) : bitOf k &&& mask = bitOf k ↔ mask.getLsbD k.toNat = true := by
  have e : (k % 256#32).toNat = k.toNat := by
    rw [BitVec.toNat_umod]
    show k.toNat % 256 = _
    omega
  unfold bitOf shl
  rw [show (k % 256).toNat = k.toNat from e]
  constructor
  · intro hh
    have := congrArg (fun x : W => x.getLsbD k.toNat) hh
    simp [h] at this
    exact this
  · intro hh
    apply BitVec.eq_of_getLsbD_eq
    intro i hi
    rw [BitVec.getLsbD_and]
    by_cases hk : i = k.toNat
    · subst hk
      rw [hh, Bool.and_true]
    · have : (1#32 <<< k.toNat).getLsbD i = false := by
        simp [BitVec.getLsbD_shiftLeft]
        intro _ _ h3
        omega
      rw [this]
      rfl


theorem mask_thumb (k mask : W) (m : Nat) (hm : ¬ bitOf k &&& mask = bitOf k) :
    Flow (maskOnce true mask) (fun s => if s.r 1 = k then m + 1 else 0) (fun s => if s.r 1 = k then m else 0) := by
  refine ⟨Nat.lt_of_lt_of_le (by decide : 0 < 16) (Nat.le_refl _), ?_,
    fun s => if s.r 1 = k then (if s.pc < 2 then (m + 1)
      else if s.pc < 4 then (if bitOf k &&& s.r 0 = bitOf k then m else m + 1)
      else if s.pc < 6 then (if (shl (s.r 2) k) &&& s.r 0 = bitOf k then m else m + 1)
      else if s.pc < 8 then (if s.r 2 &&& s.r 0 = bitOf k then m else m + 1)
      else if s.pc < 10 then (if s.r 2 = bitOf k then m else m + 1)
      else if s.pc < 12 then (if shl (s.r 0) k = s.r 2 then m else m + 1)
      else if s.pc < 14 then (if s.r 0 = s.r 2 then m else m + 1)
      else (if s.z = true then m else m + 1)) else 0, ?_, ?_⟩
  · intro a i sz hf
    have := fetch_table 0 hf
    simp [maskOnce, ins, table] at this
    rcases this with ⟨rfl, rfl, rfl⟩ | ⟨rfl, rfl, rfl⟩ | ⟨rfl, rfl, rfl⟩ | ⟨rfl, rfl, rfl⟩ | ⟨rfl, rfl, rfl⟩ | ⟨rfl, rfl, rfl⟩ |
      ⟨rfl, rfl, rfl⟩ | ⟨rfl, rfl, rfl⟩ <;>
      refine ⟨rfl, fun c off hc => ?_⟩ <;> cases hc <;> decide
  · intro s hs
    dsimp only
    rw [hs]
    simp
  · intro b s s' hs
    obtain ⟨i, sz, hf, ht, hx⟩ := step_cases hs
    clear hs hf
    obtain ⟨r, z, n, v, pc, mem, ok⟩ := s
    have hsz : Prog.size (maskOnce true mask) = 16 := rfl
    rw [hsz]
    clear hsz
    simp [maskOnce, ins, table] at ht
    rcases ht with ⟨rfl, rfl, rfl⟩ | ⟨rfl, rfl, rfl⟩ | ⟨rfl, rfl, rfl⟩ | ⟨rfl, rfl, rfl⟩ | ⟨rfl, rfl, rfl⟩ | ⟨rfl, rfl, rfl⟩ |
      ⟨rfl, rfl, rfl⟩ | ⟨rfl, rfl, rfl⟩ <;>
      rcases hx with ⟨rfl, rfl⟩ | ⟨rfl, hx⟩ <;>
      (try simp only [exec, branch, target, Cond.holds] at hx) <;>
      (try simp at hx) <;> (try (split at hx)) <;> (try simp at hx) <;> (try subst hx) <;>
      simp [cost, Armor.compare, Armor.set, flagged] <;> (try unfold bitOf at *) <;> grind only

theorem mask_fwd_thumb (k mask : W) (hm : bitOf k &&& mask = bitOf k) :
    Fwd (maskOnce true mask) (fun s => s.r 1 = k) (fun s => s.r 1 = k) := by
  intro s h0 hP
  obtain ⟨r, z, n, v, pc, mem, ok⟩ := s
  dsimp only at h0 hP
  subst h0
  refine ⟨8, ?_⟩
  unfold bitOf at hm
  simp [run, step, fetch, maskOnce, ins, exec, branch, Cond.holds, Armor.set, Armor.compare, flagged, Prog.size,
    List.replicate, hP, hm]

theorem mask_arm (k mask : W) (m : Nat) (hm : ¬ bitOf k &&& mask = bitOf k) :
    Flow (maskOnce false mask) (fun s => if s.r 1 = k then m + 1 else 0) (fun s => if s.r 1 = k then m else 0) := by
  refine ⟨Nat.lt_of_lt_of_le (by decide : 0 < 32) (Nat.le_refl _), ?_,
    fun s => if s.r 1 = k then (if s.pc < 4 then (m + 1)
      else if s.pc < 8 then (if bitOf k &&& s.r 0 = bitOf k then m else m + 1)
      else if s.pc < 12 then (if (shl (s.r 2) k) &&& s.r 0 = bitOf k then m else m + 1)
      else if s.pc < 16 then (if s.r 2 &&& s.r 0 = bitOf k then m else m + 1)
      else if s.pc < 20 then (if s.r 2 = bitOf k then m else m + 1)
      else if s.pc < 24 then (if shl (s.r 0) k = s.r 2 then m else m + 1)
      else if s.pc < 28 then (if s.r 0 = s.r 2 then m else m + 1)
      else (if s.z = true then m else m + 1)) else 0, ?_, ?_⟩
  · intro a i sz hf
    have := fetch_table 0 hf
    simp [maskOnce, ins, table] at this
    rcases this with ⟨rfl, rfl, rfl⟩ | ⟨rfl, rfl, rfl⟩ | ⟨rfl, rfl, rfl⟩ | ⟨rfl, rfl, rfl⟩ | ⟨rfl, rfl, rfl⟩ | ⟨rfl, rfl, rfl⟩ |
      ⟨rfl, rfl, rfl⟩ | ⟨rfl, rfl, rfl⟩ <;>
      refine ⟨rfl, fun c off hc => ?_⟩ <;> cases hc <;> decide
  · intro s hs
    dsimp only
    rw [hs]
    simp
  · intro b s s' hs
    obtain ⟨i, sz, hf, ht, hx⟩ := step_cases hs
    clear hs hf
    obtain ⟨r, z, n, v, pc, mem, ok⟩ := s
    have hsz : Prog.size (maskOnce false mask) = 32 := rfl
    rw [hsz]
    clear hsz
    simp [maskOnce, ins, table] at ht
    rcases ht with ⟨rfl, rfl, rfl⟩ | ⟨rfl, rfl, rfl⟩ | ⟨rfl, rfl, rfl⟩ | ⟨rfl, rfl, rfl⟩ | ⟨rfl, rfl, rfl⟩ | ⟨rfl, rfl, rfl⟩ |
      ⟨rfl, rfl, rfl⟩ | ⟨rfl, rfl, rfl⟩ <;>
      rcases hx with ⟨rfl, rfl⟩ | ⟨rfl, hx⟩ <;>
      (try simp only [exec, branch, target, Cond.holds] at hx) <;>
      (try simp at hx) <;> (try (split at hx)) <;> (try simp at hx) <;> (try subst hx) <;>
      simp [cost, Armor.compare, Armor.set, flagged] <;> (try unfold bitOf at *) <;> grind only

theorem mask_fwd_arm (k mask : W) (hm : bitOf k &&& mask = bitOf k) :
    Fwd (maskOnce false mask) (fun s => s.r 1 = k) (fun s => s.r 1 = k) := by
  intro s h0 hP
  obtain ⟨r, z, n, v, pc, mem, ok⟩ := s
  dsimp only at h0 hP
  subst h0
  refine ⟨8, ?_⟩
  unfold bitOf at hm
  simp [run, step, fetch, maskOnce, ins, exec, branch, Cond.holds, Armor.set, Armor.compare, flagged, Prog.size,
    List.replicate, hP, hm]

/-- The three repetitions. -/
def maskRest (t : Bool) (mask : W) : Prog := maskOnce t mask ++ maskOnce t mask ++ maskOnce t mask

theorem rest_flow (t : Bool) (k mask : W) (hm : ¬ bitOf k &&& mask = bitOf k) :
    Flow (maskRest t mask) (fun s => if s.r 1 = k then 3 else 0) (fun s => if s.r 1 = k then 0 else 0) := by
  cases t
  · exact Flow.append (fun _ _ => rfl) (fun _ _ => rfl) (Flow.append (fun _ _ => rfl) (fun _ _ => rfl) (mask_arm k mask 2 hm)
      (mask_arm k mask 1 hm)) (mask_arm k mask 0 hm)
  · exact Flow.append (fun _ _ => rfl) (fun _ _ => rfl) (Flow.append (fun _ _ => rfl) (fun _ _ => rfl) (mask_thumb k mask 2 hm)
      (mask_thumb k mask 1 hm)) (mask_thumb k mask 0 hm)

theorem once_closed (t : Bool) (mask : W) : Closed (maskOnce t mask) := by
  intro a i sz hf
  have := fetch_table 0 hf
  cases t <;> simp [maskOnce, ins, table] at this <;>
    rcases this with ⟨rfl, rfl, rfl⟩ | ⟨rfl, rfl, rfl⟩ | ⟨rfl, rfl, rfl⟩ | ⟨rfl, rfl, rfl⟩ | ⟨rfl, rfl, rfl⟩ | ⟨rfl, rfl, rfl⟩ |
      ⟨rfl, rfl, rfl⟩ | ⟨rfl, rfl, rfl⟩ <;>
      refine ⟨rfl, fun c off hc => ?_⟩ <;> cases hc <;> decide

theorem rest_fwd (t : Bool) (k mask : W) (hm : bitOf k &&& mask = bitOf k) :
    Fwd (maskRest t mask) (fun s => s.r 1 = k) (fun s => s.r 1 = k) := by
  have c := once_closed t mask
  have h : Fwd (maskOnce t mask) (fun s => s.r 1 = k) (fun s => s.r 1 = k) := by
    cases t
    · exact mask_fwd_arm k mask hm
    · exact mask_fwd_thumb k mask hm
  exact Fwd.append (fun _ _ h => h) (fun _ _ h => h) (c.append c) c (Fwd.append (fun _ _ h => h) (fun _ _ h => h) c c h h) h

/-- A run of a closed program, as a run of the program that follows. -/
theorem Flow.run {p q : Prog} {a b : Cpu → Nat} (h : Flow q a b) (hb : Still b) (hz : ∀ s, b s = 0) {l : List Bool} {s : Cpu}
    {s' : Cpu} (h0 : s.pc = 0) (hr : Armor.run (p ++ q) l (up p.size s) = some s') (he : s'.pc = (p ++ q).size) : a s ≤ skips l := by
  obtain ⟨hpos, hc, φ, e1, e2⟩ := h
  have hsz := size_append p q
  have := run_pot (p := p ++ q)
    (φ := fun s => if s.pc < (p ++ q).size then φ { s with pc := s.pc - p.size } else 0)
    (I := fun s => p.size ≤ s.pc) (G := fun s => s.pc = (p ++ q).size)
    (by
      intro b' s1 s2 hi h1
      have hl4 : s1.pc < (p ++ q).size := by
        unfold step at h1
        cases hf : fetch (p ++ q) s1.pc with
        | none => rw [hf] at h1; cases h1
        | some y => exact fetch_lt hf
      rw [if_pos hl4]
      obtain ⟨s3, t1, t2⟩ := step_right hc (by omega) h1
      obtain ⟨y1, y2⟩ := e2 b' _ s3 t1
      subst t2
      have e3 : ({ up p.size s3 with pc := (up p.size s3).pc - p.size } : Cpu) = s3 := by
        unfold up
        dsimp only
        rw [Nat.add_sub_cancel]
      have e4 : (up p.size s3).pc = s3.pc + p.size := rfl
      refine ⟨by omega, ?_⟩
      rw [e3, e4]
      by_cases hl5 : s3.pc < q.size
      · rw [if_pos hl5] at y2
        rw [if_pos (by omega)]
        exact y2
      · rw [if_neg hl5, hz] at y2
        rw [if_neg (by omega)]
        exact y2)
    (by
      intro s1 _ h1
      rw [if_neg (by omega)])
    l (up p.size s) s' (by show p.size ≤ s.pc + p.size; omega) hr he
  have e4 : (up p.size s).pc = s.pc + p.size := rfl
  have e3 : ({ up p.size s with pc := (up p.size s).pc - p.size } : Cpu) = s := by
    unfold up
    dsimp only
    rw [Nat.add_sub_cancel]
  rw [e3, e4, if_pos (by omega)] at this
  have := e1 s h0
  omega

theorem mask_eq (t : Bool) (id mask : W) :
    maskCheck t id mask = [ins t 2 (.movi 1 id), ins t 4 (.andi 1 15)] ++ maskRest t mask := by
  unfold maskCheck maskRest
  simp only [List.append_assoc]

/-- The first two instructions. -/
theorem mask_start (t : Bool) (id mask : W) (l : List Bool) (s : Cpu) (h0 : s.pc = 0) :
    run (maskCheck t id mask) (false :: false :: l) s = run (maskCheck t id mask) l
      (up (Prog.size [ins t 2 (.movi 1 id), ins t 4 (.andi 1 15)]) { s with r := set s.r 1 (id &&& 15#32), pc := 0 }) := by
  obtain ⟨r, z, n, v, pc, mem, ok⟩ := s
  dsimp only at h0
  subst h0
  have e : ∀ x : W, set (set r 1 id) 1 x = set r 1 x := by
    intro x
    funext i
    unfold Armor.set
    split <;> rfl
  cases t <;> simp [run, step, fetch, maskCheck, ins, exec, up, Prog.size, e] <;> simp [Armor.set]

/-- The low four bits of the partition. -/
theorem low4 (id : W) : (id &&& 15#32).toNat = id.toNat % 16 := by
  rw [BitVec.toNat_and]
  exact Nat.and_two_pow_sub_one_eq_mod id.toNat 4

/-- **C55, permission (partial).** If the number of the partition is loaded and masked, a key without the permission is not
accepted with fewer than three skipped instructions. Missing: the two instructions that load the number, see
`mask_one_skip`. -/
theorem mask_skips_partial {t : Bool} {id mask : W} {l : List Bool} {s : Cpu} (hm : mask.getLsbD (id.toNat % 16) = false)
    (h : Passes (maskCheck t id mask) (false :: false :: l) s) : 3 ≤ skips l := by
  obtain ⟨h0, s', hr, he⟩ := h
  rw [mask_start t id mask l s h0] at hr
  have hlow := low4 id
  have hm' : ¬ bitOf (id &&& 15#32) &&& mask = bitOf (id &&& 15#32) := by
    rw [bitOf_and _ _ (by omega), hlow, hm]
    decide
  rw [mask_eq] at hr he
  have := (rest_flow t (id &&& 15#32) mask hm').run (fun _ _ => rfl) (fun s => by split <;> rfl) rfl hr he
  simpa [Armor.set] using this

/-- **C55, permission.** Without skipped instructions exactly the keys with the permission are accepted. -/
theorem mask_iff (t : Bool) (id mask : W) (s : Cpu) (h0 : s.pc = 0) :
    (∃ n, Passes (maskCheck t id mask) (List.replicate n false) s) ↔ mask.getLsbD (id.toNat % 16) = true := by
  constructor
  · intro ⟨n, h⟩
    cases hm : mask.getLsbD (id.toNat % 16) with
    | true => rfl
    | false =>
      match n, h with
      | 0, ⟨_, s', hr, he⟩ =>
        injection hr with hr
        subst hr
        rw [h0] at he
        cases t <;> simp [maskCheck, maskOnce, ins, Prog.size] at he
      | 1, ⟨_, s', hr, he⟩ =>
        cases t <;> simp [run, step, fetch, maskCheck, ins, exec, h0, List.replicate] at hr <;> subst hr <;>
          simp [maskCheck, maskOnce, ins, Prog.size] at he
      | n + 2, h =>
        have := mask_skips_partial hm h
        rw [skips_none] at this
        omega
  · intro hm
    have hlow := low4 id
    obtain ⟨n, s', hr, he, _⟩ := rest_fwd t (id &&& 15#32) mask ((bitOf_and _ _ (by omega)).2 (by rw [hlow]; exact hm))
      { s with r := set s.r 1 (id &&& 15#32), pc := 0 } rfl (by simp [Armor.set])
    refine ⟨n + 2, h0, up (Prog.size [ins t 2 (.movi 1 id), ins t 4 (.andi 1 15)]) s', ?_, ?_⟩
    · rw [show List.replicate (n + 2) false = false :: false :: List.replicate n false from rfl, mask_start _ _ _ _ _ h0, mask_eq]
      exact run_right _ (((once_closed t mask).append (once_closed t mask)).append (once_closed t mask)) _ _ _ hr
    · rw [mask_eq, size_append]
      show s'.pc + _ = _
      omega

/-- A key for partition 1 (mask 2) and partition 0 or 17. -/
example : (2#32).getLsbD ((0#32).toNat % 16) = false ∧ (2#32).getLsbD ((17#32).toNat % 16) = true := by decide

/-- **Finding.** The number of the partition is loaded into `r1` once. If this instruction is skipped, all three repetitions
test whatever number `r1` contains: with 1 in it, a key for partition 1 is accepted for partition 0. -/
theorem mask_one_skip (s : Cpu) (h0 : s.pc = 0) (h1 : s.r 1 = 1) :
    Passes (maskCheck true 0 2) (true :: List.replicate 25 false) s ∧ skips (true :: List.replicate 25 false) = 1 := by
  obtain ⟨r, z, n, v, pc, mem, ok⟩ := s
  dsimp only at h0 h1
  subst h0
  refine ⟨⟨rfl, ?_⟩, rfl⟩
  simp [run, step, fetch, maskCheck, maskOnce, ins, exec, branch, Cond.holds, Armor.set, Armor.compare, flagged, h1, Prog.size,
    List.replicate, show shl 1#32 1#32 = 2#32 from by decide]

/-! ## RSA -/

theorem run_none : ∀ (p : Prog) (l1 l2 : List Bool) (s : Cpu), run p l1 s = none → run p (l1 ++ l2) s = none := by
  intro p l1
  induction l1 with
  | nil => intro l2 s h; cases h
  | cons b l1 ih =>
    intro l2 s h
    rw [List.cons_append, run]
    rw [run] at h
    cases hs : step p b s with
    | none => rfl
    | some s2 => rw [hs] at h; exact ih l2 s2 h

/-- **C55, RSA (partial).** Without skipped instructions a length below the size of the digest is refused. Missing: any
resistance to a skipped call, see `rsa_one_skip`. -/
theorem rsa_sound_partial (t : Bool) (size arg ret res : W) (junk : Cpu → Cpu) (s s' : Cpu) (n : Nat) (h0 : s.pc = 0) (hok : s.ok = false)
    (hr : run (rsaFn t size arg (verifyCall ret res junk)) (List.replicate n false) s = some s') (h : s'.ok = true) :
    ¬ ret.slt size = true := by
  intro hlt
  have hlt : ¬ (ret - size).msb = ((ret.msb != size.msb) && ((ret - size).msb != ret.msb)) := fun hh => (ge_iff _ _).1 hh hlt
  obtain ⟨r, z, n', v, pc, mem, ok⟩ := s
  dsimp only at h0 hok
  subst h0 hok
  have end12 : run (rsaFn t size arg (verifyCall ret res junk)) (List.replicate 12 false) ⟨r, z, n', v, 0, mem, false⟩ = none := by
    cases t <;>
      simp [run, step, fetch, rsaFn, verifyCall, ins, exec, branch, Cond.holds, Armor.set, Armor.compare, List.replicate, hlt,
        labAddr, Ins.isLab]
  by_cases hn : 12 ≤ n
  · rw [show n = 12 + (n - 12) by omega, ← List.replicate_append_replicate, run_none _ _ _ _ end12] at hr
    cases hr
  · have : n = 0 ∨ n = 1 ∨ n = 2 ∨ n = 3 ∨ n = 4 ∨ n = 5 ∨ n = 6 ∨ n = 7 ∨ n = 8 ∨ n = 9 ∨ n = 10 ∨ n = 11 := by omega
    rcases this with rfl | rfl | rfl | rfl | rfl | rfl | rfl | rfl | rfl | rfl | rfl | rfl <;> cases t <;>
      simp [run, step, fetch, rsaFn, verifyCall, ins, exec, branch, Cond.holds, Armor.set, Armor.compare, List.replicate, hlt,
        labAddr, Ins.isLab] at hr <;> subst hr <;> cases h

/-- **Finding.** `r0` is cleared before the call, but then it is overwritten by the first argument, a pointer. If the call is
skipped, the pointer passes for a length. -/
theorem rsa_one_skip (size arg : W) (f : Cpu → Cpu) (ha : ¬ arg.slt size = true) (s : Cpu) (h0 : s.pc = 0) :
    ∃ s', run (rsaFn true size arg f) (List.replicate 4 false ++ true :: List.replicate 12 false) s = some s' ∧ s'.ok = true := by
  have ha := eq_true ((ge_iff _ _).2 ha)
  obtain ⟨r, z, n, v, pc, mem, ok⟩ := s
  dsimp only at h0
  subst h0
  simp [run, step, fetch, rsaFn, ins, exec, branch, Cond.holds, Armor.set, Armor.compare, List.replicate, ha]

/-- A pointer into RAM is such an argument. -/
example : ¬ (0x20000000#32).slt 32#32 = true := by decide

end Verif.Armor
