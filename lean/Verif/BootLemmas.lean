import Verif.Swap

/-!
# Helper lemmas: runs that do not change the flash, completed runs
-/

namespace Verif

/-- Flash at the end of a run, however it ends. -/
def Res.flash {α} : Res α → Flash
  | .ok _ w => w.fl
  | .crash f => f
  | .panic f => f
  | .stuck f => f
  | .fault f => f

/-- `m` never changes the flash from `f0`. -/
def Keeps {α} (f0 : Flash) (m : M α) : Prop := ∀ w : World, w.fl = f0 → (m w).flash = f0

theorem Keeps.bind {α β} {f0 : Flash} {m : M α} {k : α → M β} (h1 : Keeps f0 m)
    (h2 : ∀ a, Keeps f0 (k a)) : Keeps f0 (m >>= k) := by
  intro w hw
  have h := h1 w hw
  change (M.bind m k w).flash = f0
  unfold M.bind
  cases hm : m w with
  | ok a w' => rw [hm] at h; exact h2 a w' h
  | _ => rw [hm] at h; exact h

theorem Keeps.readFlash {α} {f0 : Flash} {k : Flash → M α} (h : Keeps f0 (k f0)) :
    Keeps f0 (Verif.readFlash >>= k) := by
  intro w hw
  have : (Verif.readFlash >>= k) w = k w.fl w := rfl
  rw [this, hw]
  exact h w hw

theorem Keeps.pure {α} {f0 : Flash} (a : α) : Keeps f0 (Pure.pure a : M α) := fun _ hw => hw

theorem Keeps.panic {α} {f0 : Flash} : Keeps f0 (panicM : M α) := fun _ hw => hw

theorem Keeps.tick {f0 : Flash} : Keeps f0 Verif.tick := by
  rintro ⟨fl, l, b, t⟩ hw
  rcases b with _ | _ | k <;> cases l <;> exact hw

theorem Keeps.ite {α} {f0 : Flash} {p : Prop} [Decidable p] {m1 m2 : M α} (h1 : p → Keeps f0 m1)
    (h2 : ¬ p → Keeps f0 m2) : Keeps f0 (if p then m1 else m2) := by
  split
  · exact h1 ‹_›
  · exact h2 ‹_›

/-- A completed run of a bind. -/
theorem bind_ok {α β} {m : M α} {k : α → M β} {w w' : World} {b : β} (h : (m >>= k) w = .ok b w') :
    ∃ a w1, m w = .ok a w1 ∧ k a w1 = .ok b w' := by
  have h' : M.bind m k w = .ok b w' := h
  unfold M.bind at h'
  cases hm : m w with
  | ok a w1 => rw [hm] at h'; exact ⟨a, w1, rfl, h'⟩
  | _ => rw [hm] at h'; exact absurd h' (by simp)

theorem tick_ok {w w' : World} (h : tick w = .ok () w') : w'.fl = w.fl := by
  obtain ⟨fl, l, b, t⟩ := w
  unfold tick flashOp at h
  rcases b with _ | _ | k <;> cases l <;> simp at h <;> rw [← h]

end Verif
