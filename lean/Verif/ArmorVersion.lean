import Verif.ArmorThms

/-!
# C55: the check of the version of an update under skipped instructions
-/

namespace Verif.Armor

set_option linter.unusedSimpArgs false
set_option linter.unusedVariables false

theorem load5_thumb (ver : W → W) (junk : Cpu → Cpu) :
    Flow (readVersion true 5 1 (versionCall ver junk)) (fun s => 2)
      (fun s => if s.r 5 = ver 1#32 then 2 else 1) := by
  refine ⟨Nat.lt_of_lt_of_le (by decide : 0 < 22) (Nat.le_refl _), ?_,
    fun s => if s.pc < 12 then (2) else if s.pc < 16 then (if s.r 0 = 1#32 then 2 else 1) else (if s.r 0 = ver 1#32 then 2 else 1), ?_, ?_⟩
  · intro a i sz hf
    have := fetch_table 0 hf
    simp [readVersion, four, ins, table] at this
    rcases this with ⟨rfl, rfl, rfl⟩ | ⟨rfl, rfl, rfl⟩ | ⟨rfl, rfl, rfl⟩ | ⟨rfl, rfl, rfl⟩ | ⟨rfl, rfl, rfl⟩ | ⟨rfl, rfl, rfl⟩ |
      ⟨rfl, rfl, rfl⟩ <;>
      refine ⟨rfl, fun c off hc => ?_⟩ <;> cases hc <;> decide
  · intro s hs
    dsimp only
    (try rw [hs])
    simp
  · intro b s s' hs
    obtain ⟨i, sz, hf, ht, hx⟩ := step_cases hs
    clear hs hf
    obtain ⟨r, z, n, v, pc, mem, ok⟩ := s
    have hsz : Prog.size (readVersion true 5 1 (versionCall ver junk)) = 22 := rfl
    rw [hsz]
    clear hsz
    simp [readVersion, four, ins, table] at ht
    rcases ht with ⟨rfl, rfl, rfl⟩ | ⟨rfl, rfl, rfl⟩ | ⟨rfl, rfl, rfl⟩ | ⟨rfl, rfl, rfl⟩ | ⟨rfl, rfl, rfl⟩ | ⟨rfl, rfl, rfl⟩ |
      ⟨rfl, rfl, rfl⟩ <;>
      rcases hx with ⟨rfl, rfl⟩ | ⟨rfl, hx⟩ <;>
      (try simp only [exec, branch, target, Cond.holds] at hx) <;>
      (try simp at hx) <;> (try (split at hx)) <;> (try simp at hx) <;> (try subst hx) <;>
      simp [cost, Armor.compare, Armor.set, versionCall] <;> grind

theorem load5_arm (ver : W → W) (junk : Cpu → Cpu) :
    Flow (readVersion false 5 1 (versionCall ver junk)) (fun s => 2)
      (fun s => if s.r 5 = ver 1#32 then 2 else 1) := by
  refine ⟨Nat.lt_of_lt_of_le (by decide : 0 < 28) (Nat.le_refl _), ?_,
    fun s => if s.pc < 12 then (2) else if s.pc < 16 then (if s.r 0 = 1#32 then 2 else 1) else (if s.r 0 = ver 1#32 then 2 else 1), ?_, ?_⟩
  · intro a i sz hf
    have := fetch_table 0 hf
    simp [readVersion, four, ins, table] at this
    rcases this with ⟨rfl, rfl, rfl⟩ | ⟨rfl, rfl, rfl⟩ | ⟨rfl, rfl, rfl⟩ | ⟨rfl, rfl, rfl⟩ | ⟨rfl, rfl, rfl⟩ | ⟨rfl, rfl, rfl⟩ |
      ⟨rfl, rfl, rfl⟩ <;>
      refine ⟨rfl, fun c off hc => ?_⟩ <;> cases hc <;> decide
  · intro s hs
    dsimp only
    (try rw [hs])
    simp
  · intro b s s' hs
    obtain ⟨i, sz, hf, ht, hx⟩ := step_cases hs
    clear hs hf
    obtain ⟨r, z, n, v, pc, mem, ok⟩ := s
    have hsz : Prog.size (readVersion false 5 1 (versionCall ver junk)) = 28 := rfl
    rw [hsz]
    clear hsz
    simp [readVersion, four, ins, table] at ht
    rcases ht with ⟨rfl, rfl, rfl⟩ | ⟨rfl, rfl, rfl⟩ | ⟨rfl, rfl, rfl⟩ | ⟨rfl, rfl, rfl⟩ | ⟨rfl, rfl, rfl⟩ | ⟨rfl, rfl, rfl⟩ |
      ⟨rfl, rfl, rfl⟩ <;>
      rcases hx with ⟨rfl, rfl⟩ | ⟨rfl, hx⟩ <;>
      (try simp only [exec, branch, target, Cond.holds] at hx) <;>
      (try simp at hx) <;> (try (split at hx)) <;> (try simp at hx) <;> (try subst hx) <;>
      simp [cost, Armor.compare, Armor.set, versionCall] <;> grind

theorem load7_thumb (ver : W → W) (junk : Cpu → Cpu) :
    Flow (readVersion true 7 1 (versionCall ver junk)) (fun s => if s.r 5 = ver 1#32 then 2 else 1)
      (fun s => if s.r 5 = ver 1#32 ∧ s.r 7 = ver 1#32 then 2 else if s.r 5 = s.r 7 then 0 else 2) := by
  refine ⟨Nat.lt_of_lt_of_le (by decide : 0 < 22) (Nat.le_refl _), ?_,
    fun s => if s.pc < 12 then (if s.r 5 = ver 1#32 then 2 else 1) else if s.pc < 16 then (if s.r 5 = ver 1#32 then 2 else if s.r 0 = 1#32 then 1 else 0) else (if s.r 5 = ver 1#32 then 2 else if s.r 0 = ver 1#32 then 1 else 0), ?_, ?_⟩
  · intro a i sz hf
    have := fetch_table 0 hf
    simp [readVersion, four, ins, table] at this
    rcases this with ⟨rfl, rfl, rfl⟩ | ⟨rfl, rfl, rfl⟩ | ⟨rfl, rfl, rfl⟩ | ⟨rfl, rfl, rfl⟩ | ⟨rfl, rfl, rfl⟩ | ⟨rfl, rfl, rfl⟩ |
      ⟨rfl, rfl, rfl⟩ <;>
      refine ⟨rfl, fun c off hc => ?_⟩ <;> cases hc <;> decide
  · intro s hs
    dsimp only
    (try rw [hs])
    simp
  · intro b s s' hs
    obtain ⟨i, sz, hf, ht, hx⟩ := step_cases hs
    clear hs hf
    obtain ⟨r, z, n, v, pc, mem, ok⟩ := s
    have hsz : Prog.size (readVersion true 7 1 (versionCall ver junk)) = 22 := rfl
    rw [hsz]
    clear hsz
    simp [readVersion, four, ins, table] at ht
    rcases ht with ⟨rfl, rfl, rfl⟩ | ⟨rfl, rfl, rfl⟩ | ⟨rfl, rfl, rfl⟩ | ⟨rfl, rfl, rfl⟩ | ⟨rfl, rfl, rfl⟩ | ⟨rfl, rfl, rfl⟩ |
      ⟨rfl, rfl, rfl⟩ <;>
      rcases hx with ⟨rfl, rfl⟩ | ⟨rfl, hx⟩ <;>
      (try simp only [exec, branch, target, Cond.holds] at hx) <;>
      (try simp at hx) <;> (try (split at hx)) <;> (try simp at hx) <;> (try subst hx) <;>
      simp [cost, Armor.compare, Armor.set, versionCall] <;> grind

theorem load7_arm (ver : W → W) (junk : Cpu → Cpu) :
    Flow (readVersion false 7 1 (versionCall ver junk)) (fun s => if s.r 5 = ver 1#32 then 2 else 1)
      (fun s => if s.r 5 = ver 1#32 ∧ s.r 7 = ver 1#32 then 2 else if s.r 5 = s.r 7 then 0 else 2) := by
  refine ⟨Nat.lt_of_lt_of_le (by decide : 0 < 28) (Nat.le_refl _), ?_,
    fun s => if s.pc < 12 then (if s.r 5 = ver 1#32 then 2 else 1) else if s.pc < 16 then (if s.r 5 = ver 1#32 then 2 else if s.r 0 = 1#32 then 1 else 0) else (if s.r 5 = ver 1#32 then 2 else if s.r 0 = ver 1#32 then 1 else 0), ?_, ?_⟩
  · intro a i sz hf
    have := fetch_table 0 hf
    simp [readVersion, four, ins, table] at this
    rcases this with ⟨rfl, rfl, rfl⟩ | ⟨rfl, rfl, rfl⟩ | ⟨rfl, rfl, rfl⟩ | ⟨rfl, rfl, rfl⟩ | ⟨rfl, rfl, rfl⟩ | ⟨rfl, rfl, rfl⟩ |
      ⟨rfl, rfl, rfl⟩ <;>
      refine ⟨rfl, fun c off hc => ?_⟩ <;> cases hc <;> decide
  · intro s hs
    dsimp only
    (try rw [hs])
    simp
  · intro b s s' hs
    obtain ⟨i, sz, hf, ht, hx⟩ := step_cases hs
    clear hs hf
    obtain ⟨r, z, n, v, pc, mem, ok⟩ := s
    have hsz : Prog.size (readVersion false 7 1 (versionCall ver junk)) = 28 := rfl
    rw [hsz]
    clear hsz
    simp [readVersion, four, ins, table] at ht
    rcases ht with ⟨rfl, rfl, rfl⟩ | ⟨rfl, rfl, rfl⟩ | ⟨rfl, rfl, rfl⟩ | ⟨rfl, rfl, rfl⟩ | ⟨rfl, rfl, rfl⟩ | ⟨rfl, rfl, rfl⟩ |
      ⟨rfl, rfl, rfl⟩ <;>
      rcases hx with ⟨rfl, rfl⟩ | ⟨rfl, hx⟩ <;>
      (try simp only [exec, branch, target, Cond.holds] at hx) <;>
      (try simp at hx) <;> (try (split at hx)) <;> (try simp at hx) <;> (try subst hx) <;>
      simp [cost, Armor.compare, Armor.set, versionCall] <;> grind

theorem same5_thumb (ver : W → W) :
    Flow (four true .ne (ins true 2 (.cmpr 5 7)) (ins true 2 (.cmpr 5 7))) (fun s => if s.r 5 = ver 1#32 ∧ s.r 7 = ver 1#32 then 2 else if s.r 5 = s.r 7 then 0 else 2)
      (fun s => if s.r 5 = ver 1#32 ∧ s.r 7 = ver 1#32 then (2) else 0) := by
  refine ⟨Nat.lt_of_lt_of_le (by decide : 0 < 16) (Nat.le_refl _), ?_,
    fun s => if s.pc < 10 then (if s.r 5 = ver 1#32 ∧ s.r 7 = ver 1#32 then 2 else if s.r 5 = s.r 7 then 0 else 2) else if s.pc < 12 then (if s.r 5 = ver 1#32 ∧ s.r 7 = ver 1#32 then 2 else if s.r 5 = s.r 7 then 0 else if s.z then 1 else 2) else if s.pc < 14 then (if s.r 5 = ver 1#32 ∧ s.r 7 = ver 1#32 then 2 else if s.r 5 = s.r 7 then 0 else 1) else (if s.r 5 = ver 1#32 ∧ s.r 7 = ver 1#32 then 2 else if s.r 5 = s.r 7 then 0 else if s.z then 0 else 1), ?_, ?_⟩
  · intro a i sz hf
    have := fetch_table 0 hf
    simp [readVersion, four, ins, table] at this
    rcases this with ⟨rfl, rfl, rfl⟩ | ⟨rfl, rfl, rfl⟩ | ⟨rfl, rfl, rfl⟩ | ⟨rfl, rfl, rfl⟩ | ⟨rfl, rfl, rfl⟩ | ⟨rfl, rfl, rfl⟩ |
      ⟨rfl, rfl, rfl⟩ | ⟨rfl, rfl, rfl⟩ <;>
      refine ⟨rfl, fun c off hc => ?_⟩ <;> cases hc <;> decide
  · intro s hs
    dsimp only
    (try rw [hs])
    simp
  · intro b s s' hs
    obtain ⟨i, sz, hf, ht, hx⟩ := step_cases hs
    clear hs hf
    obtain ⟨r, z, n, v, pc, mem, ok⟩ := s
    have hsz : Prog.size (four true .ne (ins true 2 (.cmpr 5 7)) (ins true 2 (.cmpr 5 7))) = 16 := rfl
    rw [hsz]
    clear hsz
    simp [readVersion, four, ins, table] at ht
    rcases ht with ⟨rfl, rfl, rfl⟩ | ⟨rfl, rfl, rfl⟩ | ⟨rfl, rfl, rfl⟩ | ⟨rfl, rfl, rfl⟩ | ⟨rfl, rfl, rfl⟩ | ⟨rfl, rfl, rfl⟩ |
      ⟨rfl, rfl, rfl⟩ | ⟨rfl, rfl, rfl⟩ <;>
      rcases hx with ⟨rfl, rfl⟩ | ⟨rfl, hx⟩ <;>
      (try simp only [exec, branch, target, Cond.holds] at hx) <;>
      (try simp at hx) <;> (try (split at hx)) <;> (try simp at hx) <;> (try subst hx) <;>
      simp [cost, Armor.compare, Armor.set, versionCall] <;> grind

theorem same5_arm (ver : W → W) :
    Flow (four false .ne (ins false 2 (.cmpr 5 7)) (ins false 2 (.cmpr 5 7))) (fun s => if s.r 5 = ver 1#32 ∧ s.r 7 = ver 1#32 then 2 else if s.r 5 = s.r 7 then 0 else 2)
      (fun s => if s.r 5 = ver 1#32 ∧ s.r 7 = ver 1#32 then (2) else 0) := by
  refine ⟨Nat.lt_of_lt_of_le (by decide : 0 < 32) (Nat.le_refl _), ?_,
    fun s => if s.pc < 20 then (if s.r 5 = ver 1#32 ∧ s.r 7 = ver 1#32 then 2 else if s.r 5 = s.r 7 then 0 else 2) else if s.pc < 24 then (if s.r 5 = ver 1#32 ∧ s.r 7 = ver 1#32 then 2 else if s.r 5 = s.r 7 then 0 else if s.z then 1 else 2) else if s.pc < 28 then (if s.r 5 = ver 1#32 ∧ s.r 7 = ver 1#32 then 2 else if s.r 5 = s.r 7 then 0 else 1) else (if s.r 5 = ver 1#32 ∧ s.r 7 = ver 1#32 then 2 else if s.r 5 = s.r 7 then 0 else if s.z then 0 else 1), ?_, ?_⟩
  · intro a i sz hf
    have := fetch_table 0 hf
    simp [readVersion, four, ins, table] at this
    rcases this with ⟨rfl, rfl, rfl⟩ | ⟨rfl, rfl, rfl⟩ | ⟨rfl, rfl, rfl⟩ | ⟨rfl, rfl, rfl⟩ | ⟨rfl, rfl, rfl⟩ | ⟨rfl, rfl, rfl⟩ |
      ⟨rfl, rfl, rfl⟩ | ⟨rfl, rfl, rfl⟩ <;>
      refine ⟨rfl, fun c off hc => ?_⟩ <;> cases hc <;> decide
  · intro s hs
    dsimp only
    (try rw [hs])
    simp
  · intro b s s' hs
    obtain ⟨i, sz, hf, ht, hx⟩ := step_cases hs
    clear hs hf
    obtain ⟨r, z, n, v, pc, mem, ok⟩ := s
    have hsz : Prog.size (four false .ne (ins false 2 (.cmpr 5 7)) (ins false 2 (.cmpr 5 7))) = 32 := rfl
    rw [hsz]
    clear hsz
    simp [readVersion, four, ins, table] at ht
    rcases ht with ⟨rfl, rfl, rfl⟩ | ⟨rfl, rfl, rfl⟩ | ⟨rfl, rfl, rfl⟩ | ⟨rfl, rfl, rfl⟩ | ⟨rfl, rfl, rfl⟩ | ⟨rfl, rfl, rfl⟩ |
      ⟨rfl, rfl, rfl⟩ | ⟨rfl, rfl, rfl⟩ <;>
      rcases hx with ⟨rfl, rfl⟩ | ⟨rfl, hx⟩ <;>
      (try simp only [exec, branch, target, Cond.holds] at hx) <;>
      (try simp at hx) <;> (try (split at hx)) <;> (try simp at hx) <;> (try subst hx) <;>
      simp [cost, Armor.compare, Armor.set, versionCall] <;> grind

theorem load4_thumb (ver : W → W) (junk : Cpu → Cpu) :
    Flow (readVersion true 4 0 (versionCall ver junk)) (fun s => if s.r 5 = ver 1#32 ∧ s.r 7 = ver 1#32 then (2) else 0)
      (fun s => if s.r 5 = ver 1#32 ∧ s.r 7 = ver 1#32 then (if s.r 4 = ver 0#32 then 2 else 1) else 0) := by
  refine ⟨Nat.lt_of_lt_of_le (by decide : 0 < 22) (Nat.le_refl _), ?_,
    fun s => if s.pc < 12 then (if s.r 5 = ver 1#32 ∧ s.r 7 = ver 1#32 then (2) else 0) else if s.pc < 16 then (if s.r 5 = ver 1#32 ∧ s.r 7 = ver 1#32 then (if s.r 0 = 0#32 then 2 else 1) else 0) else (if s.r 5 = ver 1#32 ∧ s.r 7 = ver 1#32 then (if s.r 0 = ver 0#32 then 2 else 1) else 0), ?_, ?_⟩
  · intro a i sz hf
    have := fetch_table 0 hf
    simp [readVersion, four, ins, table] at this
    rcases this with ⟨rfl, rfl, rfl⟩ | ⟨rfl, rfl, rfl⟩ | ⟨rfl, rfl, rfl⟩ | ⟨rfl, rfl, rfl⟩ | ⟨rfl, rfl, rfl⟩ | ⟨rfl, rfl, rfl⟩ |
      ⟨rfl, rfl, rfl⟩ <;>
      refine ⟨rfl, fun c off hc => ?_⟩ <;> cases hc <;> decide
  · intro s hs
    dsimp only
    (try rw [hs])
    simp
  · intro b s s' hs
    obtain ⟨i, sz, hf, ht, hx⟩ := step_cases hs
    clear hs hf
    obtain ⟨r, z, n, v, pc, mem, ok⟩ := s
    have hsz : Prog.size (readVersion true 4 0 (versionCall ver junk)) = 22 := rfl
    rw [hsz]
    clear hsz
    simp [readVersion, four, ins, table] at ht
    rcases ht with ⟨rfl, rfl, rfl⟩ | ⟨rfl, rfl, rfl⟩ | ⟨rfl, rfl, rfl⟩ | ⟨rfl, rfl, rfl⟩ | ⟨rfl, rfl, rfl⟩ | ⟨rfl, rfl, rfl⟩ |
      ⟨rfl, rfl, rfl⟩ <;>
      rcases hx with ⟨rfl, rfl⟩ | ⟨rfl, hx⟩ <;>
      (try simp only [exec, branch, target, Cond.holds] at hx) <;>
      (try simp at hx) <;> (try (split at hx)) <;> (try simp at hx) <;> (try subst hx) <;>
      simp [cost, Armor.compare, Armor.set, versionCall] <;> grind

theorem load4_arm (ver : W → W) (junk : Cpu → Cpu) :
    Flow (readVersion false 4 0 (versionCall ver junk)) (fun s => if s.r 5 = ver 1#32 ∧ s.r 7 = ver 1#32 then (2) else 0)
      (fun s => if s.r 5 = ver 1#32 ∧ s.r 7 = ver 1#32 then (if s.r 4 = ver 0#32 then 2 else 1) else 0) := by
  refine ⟨Nat.lt_of_lt_of_le (by decide : 0 < 28) (Nat.le_refl _), ?_,
    fun s => if s.pc < 12 then (if s.r 5 = ver 1#32 ∧ s.r 7 = ver 1#32 then (2) else 0) else if s.pc < 16 then (if s.r 5 = ver 1#32 ∧ s.r 7 = ver 1#32 then (if s.r 0 = 0#32 then 2 else 1) else 0) else (if s.r 5 = ver 1#32 ∧ s.r 7 = ver 1#32 then (if s.r 0 = ver 0#32 then 2 else 1) else 0), ?_, ?_⟩
  · intro a i sz hf
    have := fetch_table 0 hf
    simp [readVersion, four, ins, table] at this
    rcases this with ⟨rfl, rfl, rfl⟩ | ⟨rfl, rfl, rfl⟩ | ⟨rfl, rfl, rfl⟩ | ⟨rfl, rfl, rfl⟩ | ⟨rfl, rfl, rfl⟩ | ⟨rfl, rfl, rfl⟩ |
      ⟨rfl, rfl, rfl⟩ <;>
      refine ⟨rfl, fun c off hc => ?_⟩ <;> cases hc <;> decide
  · intro s hs
    dsimp only
    (try rw [hs])
    simp
  · intro b s s' hs
    obtain ⟨i, sz, hf, ht, hx⟩ := step_cases hs
    clear hs hf
    obtain ⟨r, z, n, v, pc, mem, ok⟩ := s
    have hsz : Prog.size (readVersion false 4 0 (versionCall ver junk)) = 28 := rfl
    rw [hsz]
    clear hsz
    simp [readVersion, four, ins, table] at ht
    rcases ht with ⟨rfl, rfl, rfl⟩ | ⟨rfl, rfl, rfl⟩ | ⟨rfl, rfl, rfl⟩ | ⟨rfl, rfl, rfl⟩ | ⟨rfl, rfl, rfl⟩ | ⟨rfl, rfl, rfl⟩ |
      ⟨rfl, rfl, rfl⟩ <;>
      rcases hx with ⟨rfl, rfl⟩ | ⟨rfl, hx⟩ <;>
      (try simp only [exec, branch, target, Cond.holds] at hx) <;>
      (try simp at hx) <;> (try (split at hx)) <;> (try simp at hx) <;> (try subst hx) <;>
      simp [cost, Armor.compare, Armor.set, versionCall] <;> grind

theorem load6_thumb (ver : W → W) (junk : Cpu → Cpu) :
    Flow (readVersion true 6 0 (versionCall ver junk)) (fun s => if s.r 5 = ver 1#32 ∧ s.r 7 = ver 1#32 then (if s.r 4 = ver 0#32 then 2 else 1) else 0)
      (fun s => if s.r 5 = ver 1#32 ∧ s.r 7 = ver 1#32 then (if s.r 4 = ver 0#32 ∧ s.r 6 = ver 0#32 then 2 else if s.r 4 = s.r 6 then 0 else 2) else 0) := by
  refine ⟨Nat.lt_of_lt_of_le (by decide : 0 < 22) (Nat.le_refl _), ?_,
    fun s => if s.pc < 12 then (if s.r 5 = ver 1#32 ∧ s.r 7 = ver 1#32 then (if s.r 4 = ver 0#32 then 2 else 1) else 0) else if s.pc < 16 then (if s.r 5 = ver 1#32 ∧ s.r 7 = ver 1#32 then (if s.r 4 = ver 0#32 then 2 else if s.r 0 = 0#32 then 1 else 0) else 0) else (if s.r 5 = ver 1#32 ∧ s.r 7 = ver 1#32 then (if s.r 4 = ver 0#32 then 2 else if s.r 0 = ver 0#32 then 1 else 0) else 0), ?_, ?_⟩
  · intro a i sz hf
    have := fetch_table 0 hf
    simp [readVersion, four, ins, table] at this
    rcases this with ⟨rfl, rfl, rfl⟩ | ⟨rfl, rfl, rfl⟩ | ⟨rfl, rfl, rfl⟩ | ⟨rfl, rfl, rfl⟩ | ⟨rfl, rfl, rfl⟩ | ⟨rfl, rfl, rfl⟩ |
      ⟨rfl, rfl, rfl⟩ <;>
      refine ⟨rfl, fun c off hc => ?_⟩ <;> cases hc <;> decide
  · intro s hs
    dsimp only
    (try rw [hs])
    simp
  · intro b s s' hs
    obtain ⟨i, sz, hf, ht, hx⟩ := step_cases hs
    clear hs hf
    obtain ⟨r, z, n, v, pc, mem, ok⟩ := s
    have hsz : Prog.size (readVersion true 6 0 (versionCall ver junk)) = 22 := rfl
    rw [hsz]
    clear hsz
    simp [readVersion, four, ins, table] at ht
    rcases ht with ⟨rfl, rfl, rfl⟩ | ⟨rfl, rfl, rfl⟩ | ⟨rfl, rfl, rfl⟩ | ⟨rfl, rfl, rfl⟩ | ⟨rfl, rfl, rfl⟩ | ⟨rfl, rfl, rfl⟩ |
      ⟨rfl, rfl, rfl⟩ <;>
      rcases hx with ⟨rfl, rfl⟩ | ⟨rfl, hx⟩ <;>
      (try simp only [exec, branch, target, Cond.holds] at hx) <;>
      (try simp at hx) <;> (try (split at hx)) <;> (try simp at hx) <;> (try subst hx) <;>
      simp [cost, Armor.compare, Armor.set, versionCall] <;> grind

theorem load6_arm (ver : W → W) (junk : Cpu → Cpu) :
    Flow (readVersion false 6 0 (versionCall ver junk)) (fun s => if s.r 5 = ver 1#32 ∧ s.r 7 = ver 1#32 then (if s.r 4 = ver 0#32 then 2 else 1) else 0)
      (fun s => if s.r 5 = ver 1#32 ∧ s.r 7 = ver 1#32 then (if s.r 4 = ver 0#32 ∧ s.r 6 = ver 0#32 then 2 else if s.r 4 = s.r 6 then 0 else 2) else 0) := by
  refine ⟨Nat.lt_of_lt_of_le (by decide : 0 < 28) (Nat.le_refl _), ?_,
    fun s => if s.pc < 12 then (if s.r 5 = ver 1#32 ∧ s.r 7 = ver 1#32 then (if s.r 4 = ver 0#32 then 2 else 1) else 0) else if s.pc < 16 then (if s.r 5 = ver 1#32 ∧ s.r 7 = ver 1#32 then (if s.r 4 = ver 0#32 then 2 else if s.r 0 = 0#32 then 1 else 0) else 0) else (if s.r 5 = ver 1#32 ∧ s.r 7 = ver 1#32 then (if s.r 4 = ver 0#32 then 2 else if s.r 0 = ver 0#32 then 1 else 0) else 0), ?_, ?_⟩
  · intro a i sz hf
    have := fetch_table 0 hf
    simp [readVersion, four, ins, table] at this
    rcases this with ⟨rfl, rfl, rfl⟩ | ⟨rfl, rfl, rfl⟩ | ⟨rfl, rfl, rfl⟩ | ⟨rfl, rfl, rfl⟩ | ⟨rfl, rfl, rfl⟩ | ⟨rfl, rfl, rfl⟩ |
      ⟨rfl, rfl, rfl⟩ <;>
      refine ⟨rfl, fun c off hc => ?_⟩ <;> cases hc <;> decide
  · intro s hs
    dsimp only
    (try rw [hs])
    simp
  · intro b s s' hs
    obtain ⟨i, sz, hf, ht, hx⟩ := step_cases hs
    clear hs hf
    obtain ⟨r, z, n, v, pc, mem, ok⟩ := s
    have hsz : Prog.size (readVersion false 6 0 (versionCall ver junk)) = 28 := rfl
    rw [hsz]
    clear hsz
    simp [readVersion, four, ins, table] at ht
    rcases ht with ⟨rfl, rfl, rfl⟩ | ⟨rfl, rfl, rfl⟩ | ⟨rfl, rfl, rfl⟩ | ⟨rfl, rfl, rfl⟩ | ⟨rfl, rfl, rfl⟩ | ⟨rfl, rfl, rfl⟩ |
      ⟨rfl, rfl, rfl⟩ <;>
      rcases hx with ⟨rfl, rfl⟩ | ⟨rfl, hx⟩ <;>
      (try simp only [exec, branch, target, Cond.holds] at hx) <;>
      (try simp at hx) <;> (try (split at hx)) <;> (try simp at hx) <;> (try subst hx) <;>
      simp [cost, Armor.compare, Armor.set, versionCall] <;> grind

theorem same4_thumb (ver : W → W) :
    Flow (four true .ne (ins true 2 (.cmpr 4 6)) (ins true 2 (.cmpr 4 6))) (fun s => if s.r 5 = ver 1#32 ∧ s.r 7 = ver 1#32 then (if s.r 4 = ver 0#32 ∧ s.r 6 = ver 0#32 then 2 else if s.r 4 = s.r 6 then 0 else 2) else 0)
      (fun s => if s.r 5 = ver 1#32 ∧ s.r 7 = ver 1#32 ∧ s.r 4 = ver 0#32 ∧ s.r 6 = ver 0#32 then (2) else 0) := by
  refine ⟨Nat.lt_of_lt_of_le (by decide : 0 < 16) (Nat.le_refl _), ?_,
    fun s => if s.pc < 10 then (if s.r 5 = ver 1#32 ∧ s.r 7 = ver 1#32 then (if s.r 4 = ver 0#32 ∧ s.r 6 = ver 0#32 then 2 else if s.r 4 = s.r 6 then 0 else 2) else 0) else if s.pc < 12 then (if s.r 5 = ver 1#32 ∧ s.r 7 = ver 1#32 then (if s.r 4 = ver 0#32 ∧ s.r 6 = ver 0#32 then 2 else if s.r 4 = s.r 6 then 0 else if s.z then 1 else 2) else 0) else if s.pc < 14 then (if s.r 5 = ver 1#32 ∧ s.r 7 = ver 1#32 then (if s.r 4 = ver 0#32 ∧ s.r 6 = ver 0#32 then 2 else if s.r 4 = s.r 6 then 0 else 1) else 0) else (if s.r 5 = ver 1#32 ∧ s.r 7 = ver 1#32 then (if s.r 4 = ver 0#32 ∧ s.r 6 = ver 0#32 then 2 else if s.r 4 = s.r 6 then 0 else if s.z then 0 else 1) else 0), ?_, ?_⟩
  · intro a i sz hf
    have := fetch_table 0 hf
    simp [readVersion, four, ins, table] at this
    rcases this with ⟨rfl, rfl, rfl⟩ | ⟨rfl, rfl, rfl⟩ | ⟨rfl, rfl, rfl⟩ | ⟨rfl, rfl, rfl⟩ | ⟨rfl, rfl, rfl⟩ | ⟨rfl, rfl, rfl⟩ |
      ⟨rfl, rfl, rfl⟩ | ⟨rfl, rfl, rfl⟩ <;>
      refine ⟨rfl, fun c off hc => ?_⟩ <;> cases hc <;> decide
  · intro s hs
    dsimp only
    (try rw [hs])
    simp
  · intro b s s' hs
    obtain ⟨i, sz, hf, ht, hx⟩ := step_cases hs
    clear hs hf
    obtain ⟨r, z, n, v, pc, mem, ok⟩ := s
    have hsz : Prog.size (four true .ne (ins true 2 (.cmpr 4 6)) (ins true 2 (.cmpr 4 6))) = 16 := rfl
    rw [hsz]
    clear hsz
    simp [readVersion, four, ins, table] at ht
    rcases ht with ⟨rfl, rfl, rfl⟩ | ⟨rfl, rfl, rfl⟩ | ⟨rfl, rfl, rfl⟩ | ⟨rfl, rfl, rfl⟩ | ⟨rfl, rfl, rfl⟩ | ⟨rfl, rfl, rfl⟩ |
      ⟨rfl, rfl, rfl⟩ | ⟨rfl, rfl, rfl⟩ <;>
      rcases hx with ⟨rfl, rfl⟩ | ⟨rfl, hx⟩ <;>
      (try simp only [exec, branch, target, Cond.holds] at hx) <;>
      (try simp at hx) <;> (try (split at hx)) <;> (try simp at hx) <;> (try subst hx) <;>
      simp [cost, Armor.compare, Armor.set, versionCall] <;> grind

theorem same4_arm (ver : W → W) :
    Flow (four false .ne (ins false 2 (.cmpr 4 6)) (ins false 2 (.cmpr 4 6))) (fun s => if s.r 5 = ver 1#32 ∧ s.r 7 = ver 1#32 then (if s.r 4 = ver 0#32 ∧ s.r 6 = ver 0#32 then 2 else if s.r 4 = s.r 6 then 0 else 2) else 0)
      (fun s => if s.r 5 = ver 1#32 ∧ s.r 7 = ver 1#32 ∧ s.r 4 = ver 0#32 ∧ s.r 6 = ver 0#32 then (2) else 0) := by
  refine ⟨Nat.lt_of_lt_of_le (by decide : 0 < 32) (Nat.le_refl _), ?_,
    fun s => if s.pc < 20 then (if s.r 5 = ver 1#32 ∧ s.r 7 = ver 1#32 then (if s.r 4 = ver 0#32 ∧ s.r 6 = ver 0#32 then 2 else if s.r 4 = s.r 6 then 0 else 2) else 0) else if s.pc < 24 then (if s.r 5 = ver 1#32 ∧ s.r 7 = ver 1#32 then (if s.r 4 = ver 0#32 ∧ s.r 6 = ver 0#32 then 2 else if s.r 4 = s.r 6 then 0 else if s.z then 1 else 2) else 0) else if s.pc < 28 then (if s.r 5 = ver 1#32 ∧ s.r 7 = ver 1#32 then (if s.r 4 = ver 0#32 ∧ s.r 6 = ver 0#32 then 2 else if s.r 4 = s.r 6 then 0 else 1) else 0) else (if s.r 5 = ver 1#32 ∧ s.r 7 = ver 1#32 then (if s.r 4 = ver 0#32 ∧ s.r 6 = ver 0#32 then 2 else if s.r 4 = s.r 6 then 0 else if s.z then 0 else 1) else 0), ?_, ?_⟩
  · intro a i sz hf
    have := fetch_table 0 hf
    simp [readVersion, four, ins, table] at this
    rcases this with ⟨rfl, rfl, rfl⟩ | ⟨rfl, rfl, rfl⟩ | ⟨rfl, rfl, rfl⟩ | ⟨rfl, rfl, rfl⟩ | ⟨rfl, rfl, rfl⟩ | ⟨rfl, rfl, rfl⟩ |
      ⟨rfl, rfl, rfl⟩ | ⟨rfl, rfl, rfl⟩ <;>
      refine ⟨rfl, fun c off hc => ?_⟩ <;> cases hc <;> decide
  · intro s hs
    dsimp only
    (try rw [hs])
    simp
  · intro b s s' hs
    obtain ⟨i, sz, hf, ht, hx⟩ := step_cases hs
    clear hs hf
    obtain ⟨r, z, n, v, pc, mem, ok⟩ := s
    have hsz : Prog.size (four false .ne (ins false 2 (.cmpr 4 6)) (ins false 2 (.cmpr 4 6))) = 32 := rfl
    rw [hsz]
    clear hsz
    simp [readVersion, four, ins, table] at ht
    rcases ht with ⟨rfl, rfl, rfl⟩ | ⟨rfl, rfl, rfl⟩ | ⟨rfl, rfl, rfl⟩ | ⟨rfl, rfl, rfl⟩ | ⟨rfl, rfl, rfl⟩ | ⟨rfl, rfl, rfl⟩ |
      ⟨rfl, rfl, rfl⟩ | ⟨rfl, rfl, rfl⟩ <;>
      rcases hx with ⟨rfl, rfl⟩ | ⟨rfl, hx⟩ <;>
      (try simp only [exec, branch, target, Cond.holds] at hx) <;>
      (try simp at hx) <;> (try (split at hx)) <;> (try simp at hx) <;> (try subst hx) <;>
      simp [cost, Armor.compare, Armor.set, versionCall] <;> grind

theorem zeros_thumb (ver : W → W) :
    Flow ([ins true 4 (.movi 0 0), ins true 4 (.movi 0 0), ins true 4 (.movi 0 0)]) (fun s => if s.r 5 = ver 1#32 ∧ s.r 7 = ver 1#32 ∧ s.r 4 = ver 0#32 ∧ s.r 6 = ver 0#32 then (2) else 0)
      (fun s => if s.r 5 = ver 1#32 ∧ s.r 7 = ver 1#32 ∧ s.r 4 = ver 0#32 ∧ s.r 6 = ver 0#32 then (2) else 0) := by
  refine ⟨Nat.lt_of_lt_of_le (by decide : 0 < 12) (Nat.le_refl _), ?_,
    fun s => (if s.r 5 = ver 1#32 ∧ s.r 7 = ver 1#32 ∧ s.r 4 = ver 0#32 ∧ s.r 6 = ver 0#32 then (2) else 0), ?_, ?_⟩
  · intro a i sz hf
    have := fetch_table 0 hf
    simp [readVersion, four, ins, table] at this
    rcases this with ⟨rfl, rfl, rfl⟩ | ⟨rfl, rfl, rfl⟩ | ⟨rfl, rfl, rfl⟩ <;>
      refine ⟨rfl, fun c off hc => ?_⟩ <;> cases hc <;> decide
  · intro s hs
    dsimp only
    (try rw [hs])
    simp
  · intro b s s' hs
    obtain ⟨i, sz, hf, ht, hx⟩ := step_cases hs
    clear hs hf
    obtain ⟨r, z, n, v, pc, mem, ok⟩ := s
    have hsz : Prog.size ([ins true 4 (.movi 0 0), ins true 4 (.movi 0 0), ins true 4 (.movi 0 0)]) = 12 := rfl
    rw [hsz]
    clear hsz
    simp [readVersion, four, ins, table] at ht
    rcases ht with ⟨rfl, rfl, rfl⟩ | ⟨rfl, rfl, rfl⟩ | ⟨rfl, rfl, rfl⟩ <;>
      rcases hx with ⟨rfl, rfl⟩ | ⟨rfl, hx⟩ <;>
      (try simp only [exec, branch, target, Cond.holds] at hx) <;>
      (try simp at hx) <;> (try (split at hx)) <;> (try simp at hx) <;> (try subst hx) <;>
      simp [cost, Armor.compare, Armor.set, versionCall] <;> grind

theorem zeros_arm (ver : W → W) :
    Flow ([ins false 4 (.movi 0 0), ins false 4 (.movi 0 0), ins false 4 (.movi 0 0)]) (fun s => if s.r 5 = ver 1#32 ∧ s.r 7 = ver 1#32 ∧ s.r 4 = ver 0#32 ∧ s.r 6 = ver 0#32 then (2) else 0)
      (fun s => if s.r 5 = ver 1#32 ∧ s.r 7 = ver 1#32 ∧ s.r 4 = ver 0#32 ∧ s.r 6 = ver 0#32 then (2) else 0) := by
  refine ⟨Nat.lt_of_lt_of_le (by decide : 0 < 12) (Nat.le_refl _), ?_,
    fun s => (if s.r 5 = ver 1#32 ∧ s.r 7 = ver 1#32 ∧ s.r 4 = ver 0#32 ∧ s.r 6 = ver 0#32 then (2) else 0), ?_, ?_⟩
  · intro a i sz hf
    have := fetch_table 0 hf
    simp [readVersion, four, ins, table] at this
    rcases this with ⟨rfl, rfl, rfl⟩ | ⟨rfl, rfl, rfl⟩ | ⟨rfl, rfl, rfl⟩ <;>
      refine ⟨rfl, fun c off hc => ?_⟩ <;> cases hc <;> decide
  · intro s hs
    dsimp only
    (try rw [hs])
    simp
  · intro b s s' hs
    obtain ⟨i, sz, hf, ht, hx⟩ := step_cases hs
    clear hs hf
    obtain ⟨r, z, n, v, pc, mem, ok⟩ := s
    have hsz : Prog.size ([ins false 4 (.movi 0 0), ins false 4 (.movi 0 0), ins false 4 (.movi 0 0)]) = 12 := rfl
    rw [hsz]
    clear hsz
    simp [readVersion, four, ins, table] at ht
    rcases ht with ⟨rfl, rfl, rfl⟩ | ⟨rfl, rfl, rfl⟩ | ⟨rfl, rfl, rfl⟩ <;>
      rcases hx with ⟨rfl, rfl⟩ | ⟨rfl, hx⟩ <;>
      (try simp only [exec, branch, target, Cond.holds] at hx) <;>
      (try simp at hx) <;> (try (split at hx)) <;> (try simp at hx) <;> (try subst hx) <;>
      simp [cost, Armor.compare, Armor.set, versionCall] <;> grind

theorem final_thumb (ver : W → W)
    (hv : (ver 0#32 - ver 1#32).msb = (((ver 0#32).msb != (ver 1#32).msb) && ((ver 0#32 - ver 1#32).msb != (ver 0#32).msb))) :
    Flow (four true .ge (ins true 2 (.cmpr 4 5)) (ins true 2 (.cmpr 6 7))) (fun s => if s.r 5 = ver 1#32 ∧ s.r 7 = ver 1#32 ∧ s.r 4 = ver 0#32 ∧ s.r 6 = ver 0#32 then (2) else 0)
      (fun s => 0) := by
  refine ⟨Nat.lt_of_lt_of_le (by decide : 0 < 16) (Nat.le_refl _), ?_,
    fun s => if s.pc < 10 then (if s.r 5 = ver 1#32 ∧ s.r 7 = ver 1#32 ∧ s.r 4 = ver 0#32 ∧ s.r 6 = ver 0#32 then (2) else 0) else if s.pc < 12 then (if s.r 5 = ver 1#32 ∧ s.r 7 = ver 1#32 ∧ s.r 4 = ver 0#32 ∧ s.r 6 = ver 0#32 then (if s.n = s.v then 2 else 1) else 0) else if s.pc < 14 then (if s.r 5 = ver 1#32 ∧ s.r 7 = ver 1#32 ∧ s.r 4 = ver 0#32 ∧ s.r 6 = ver 0#32 then (1) else 0) else (if s.r 5 = ver 1#32 ∧ s.r 7 = ver 1#32 ∧ s.r 4 = ver 0#32 ∧ s.r 6 = ver 0#32 then (if s.n = s.v then 1 else 0) else 0), ?_, ?_⟩
  · intro a i sz hf
    have := fetch_table 0 hf
    simp [readVersion, four, ins, table] at this
    rcases this with ⟨rfl, rfl, rfl⟩ | ⟨rfl, rfl, rfl⟩ | ⟨rfl, rfl, rfl⟩ | ⟨rfl, rfl, rfl⟩ | ⟨rfl, rfl, rfl⟩ | ⟨rfl, rfl, rfl⟩ |
      ⟨rfl, rfl, rfl⟩ | ⟨rfl, rfl, rfl⟩ <;>
      refine ⟨rfl, fun c off hc => ?_⟩ <;> cases hc <;> decide
  · intro s hs
    dsimp only
    (try rw [hs])
    simp
  · intro b s s' hs
    obtain ⟨i, sz, hf, ht, hx⟩ := step_cases hs
    clear hs hf
    obtain ⟨r, z, n, v, pc, mem, ok⟩ := s
    have hsz : Prog.size (four true .ge (ins true 2 (.cmpr 4 5)) (ins true 2 (.cmpr 6 7))) = 16 := rfl
    rw [hsz]
    clear hsz
    simp [readVersion, four, ins, table] at ht
    rcases ht with ⟨rfl, rfl, rfl⟩ | ⟨rfl, rfl, rfl⟩ | ⟨rfl, rfl, rfl⟩ | ⟨rfl, rfl, rfl⟩ | ⟨rfl, rfl, rfl⟩ | ⟨rfl, rfl, rfl⟩ |
      ⟨rfl, rfl, rfl⟩ | ⟨rfl, rfl, rfl⟩ <;>
      rcases hx with ⟨rfl, rfl⟩ | ⟨rfl, hx⟩ <;>
      (try simp only [exec, branch, target, Cond.holds] at hx) <;>
      (try simp at hx) <;> (try (split at hx)) <;> (try simp at hx) <;> (try subst hx) <;>
      simp [cost, Armor.compare, Armor.set, versionCall] <;> grind

theorem final_arm (ver : W → W)
    (hv : (ver 0#32 - ver 1#32).msb = (((ver 0#32).msb != (ver 1#32).msb) && ((ver 0#32 - ver 1#32).msb != (ver 0#32).msb))) :
    Flow (four false .ge (ins false 2 (.cmpr 4 5)) (ins false 2 (.cmpr 6 7))) (fun s => if s.r 5 = ver 1#32 ∧ s.r 7 = ver 1#32 ∧ s.r 4 = ver 0#32 ∧ s.r 6 = ver 0#32 then (2) else 0)
      (fun s => 0) := by
  refine ⟨Nat.lt_of_lt_of_le (by decide : 0 < 32) (Nat.le_refl _), ?_,
    fun s => if s.pc < 20 then (if s.r 5 = ver 1#32 ∧ s.r 7 = ver 1#32 ∧ s.r 4 = ver 0#32 ∧ s.r 6 = ver 0#32 then (2) else 0) else if s.pc < 24 then (if s.r 5 = ver 1#32 ∧ s.r 7 = ver 1#32 ∧ s.r 4 = ver 0#32 ∧ s.r 6 = ver 0#32 then (if s.n = s.v then 2 else 1) else 0) else if s.pc < 28 then (if s.r 5 = ver 1#32 ∧ s.r 7 = ver 1#32 ∧ s.r 4 = ver 0#32 ∧ s.r 6 = ver 0#32 then (1) else 0) else (if s.r 5 = ver 1#32 ∧ s.r 7 = ver 1#32 ∧ s.r 4 = ver 0#32 ∧ s.r 6 = ver 0#32 then (if s.n = s.v then 1 else 0) else 0), ?_, ?_⟩
  · intro a i sz hf
    have := fetch_table 0 hf
    simp [readVersion, four, ins, table] at this
    rcases this with ⟨rfl, rfl, rfl⟩ | ⟨rfl, rfl, rfl⟩ | ⟨rfl, rfl, rfl⟩ | ⟨rfl, rfl, rfl⟩ | ⟨rfl, rfl, rfl⟩ | ⟨rfl, rfl, rfl⟩ |
      ⟨rfl, rfl, rfl⟩ | ⟨rfl, rfl, rfl⟩ <;>
      refine ⟨rfl, fun c off hc => ?_⟩ <;> cases hc <;> decide
  · intro s hs
    dsimp only
    (try rw [hs])
    simp
  · intro b s s' hs
    obtain ⟨i, sz, hf, ht, hx⟩ := step_cases hs
    clear hs hf
    obtain ⟨r, z, n, v, pc, mem, ok⟩ := s
    have hsz : Prog.size (four false .ge (ins false 2 (.cmpr 4 5)) (ins false 2 (.cmpr 6 7))) = 32 := rfl
    rw [hsz]
    clear hsz
    simp [readVersion, four, ins, table] at ht
    rcases ht with ⟨rfl, rfl, rfl⟩ | ⟨rfl, rfl, rfl⟩ | ⟨rfl, rfl, rfl⟩ | ⟨rfl, rfl, rfl⟩ | ⟨rfl, rfl, rfl⟩ | ⟨rfl, rfl, rfl⟩ |
      ⟨rfl, rfl, rfl⟩ | ⟨rfl, rfl, rfl⟩ <;>
      rcases hx with ⟨rfl, rfl⟩ | ⟨rfl, hx⟩ <;>
      (try simp only [exec, branch, target, Cond.holds] at hx) <;>
      (try simp at hx) <;> (try (split at hx)) <;> (try simp at hx) <;> (try subst hx) <;>
      simp [cost, Armor.compare, Armor.set, versionCall] <;> grind
/-! ## The version of an update -/

/-- The comparison of versions without the labels. -/
def versionBody (t : Bool) (f : Cpu → Cpu) : Prog :=
  readVersion t 5 1 f ++ readVersion t 7 1 f ++
    four t .ne (ins t 2 (.cmpr 5 7)) (ins t 2 (.cmpr 5 7)) ++ readVersion t 4 0 f ++ readVersion t 6 0 f ++
    four t .ne (ins t 2 (.cmpr 4 6)) (ins t 2 (.cmpr 4 6)) ++
    [ins t 4 (.movi 0 0), ins t 4 (.movi 0 0), ins t 4 (.movi 0 0)] ++
    four t .ge (ins t 2 (.cmpr 4 5)) (ins t 2 (.cmpr 6 7)) ++ [{ ins := .lab 2, size := 0 }, ins t 2 .nop]

theorem version_eq (t : Bool) (fb : W) (f : Cpu → Cpu) : version t fb f = versionHead t fb ++ versionBody t f := by
  unfold version versionBody
  simp only [List.append_assoc]

/-- `bge` after a comparison is the comparison of signed numbers. -/
theorem ge_iff (x y : W) :
    (x - y).msb = ((x.msb != y.msb) && ((x - y).msb != x.msb)) ↔ ¬ x.slt y = true := by
  have hx := x.isLt
  have hy := y.isLt
  rw [BitVec.slt_eq_decide, decide_eq_true_eq, BitVec.toInt_eq_msb_cond, BitVec.toInt_eq_msb_cond, BitVec.msb_eq_decide, BitVec.msb_eq_decide,
    BitVec.msb_eq_decide, BitVec.toNat_sub]
  by_cases h1 : 2 ^ (32 - 1) ≤ x.toNat <;> by_cases h2 : 2 ^ (32 - 1) ≤ y.toNat <;>
    by_cases h3 : 2 ^ (32 - 1) ≤ (2 ^ 32 - y.toNat + x.toNat) % 2 ^ 32 <;>
    simp only [h1, h2, h3, decide_true, decide_false, if_true, if_false, bne_self_eq_false, Bool.false_and, Bool.false_eq_true] <;>
    simp <;> omega

theorem nop_flow (t : Bool) : Flow [{ ins := .lab 2, size := 0 }, ins t 2 .nop] (fun _ => 0) (fun _ => 0) := by
  refine ⟨by cases t <;> decide, ?_, fun _ => 0, fun _ _ => Nat.le_refl _, ?_⟩
  · intro a i sz hf
    have := fetch_table 0 hf
    cases t <;> simp [ins, table] at this <;> obtain ⟨rfl, rfl, rfl⟩ := this <;> exact ⟨rfl, fun c off hc => by cases hc⟩
  · intro b s s' hs
    obtain ⟨i, sz, hf, ht, hx⟩ := step_cases hs
    refine ⟨?_, by simp⟩
    obtain ⟨r, z, n, v, pc, mem, ok⟩ := s
    cases t <;> simp [ins, table] at ht <;> obtain ⟨rfl, rfl, rfl⟩ := ht <;>
      rcases hx with ⟨rfl, rfl⟩ | ⟨rfl, hx⟩ <;> (try (simp only [exec] at hx; injection hx with hx; subst hx)) <;>
      simp [Prog.size, ins]

theorem body_flow (t : Bool) (ver : W → W) (junk : Cpu → Cpu) (hv : ¬ (ver 0).slt (ver 1) = true) :
    Flow (versionBody t (versionCall ver junk)) (fun _ => 2) (fun _ => 0) := by
  have hv := (ge_iff _ _).2 hv
  cases t
  · exact Flow.append (fun _ _ => rfl) (fun _ _ => rfl) (Flow.append (fun _ _ => rfl) (fun _ _ => rfl)
      (Flow.append (fun _ _ => rfl) (fun _ _ => rfl) (Flow.append (fun _ _ => rfl) (fun _ _ => rfl)
      (Flow.append (fun _ _ => rfl) (fun _ _ => rfl) (Flow.append (fun _ _ => rfl) (fun _ _ => rfl)
      (Flow.append (fun _ _ => rfl) (fun _ _ => rfl) (Flow.append (fun _ _ => rfl) (fun _ _ => rfl)
      (load5_arm ver junk) (load7_arm ver junk)) (same5_arm ver)) (load4_arm ver junk)) (load6_arm ver junk)) (same4_arm ver))
      (zeros_arm ver)) (final_arm ver hv)) (nop_flow false)
  · exact Flow.append (fun _ _ => rfl) (fun _ _ => rfl) (Flow.append (fun _ _ => rfl) (fun _ _ => rfl)
      (Flow.append (fun _ _ => rfl) (fun _ _ => rfl) (Flow.append (fun _ _ => rfl) (fun _ _ => rfl)
      (Flow.append (fun _ _ => rfl) (fun _ _ => rfl) (Flow.append (fun _ _ => rfl) (fun _ _ => rfl)
      (Flow.append (fun _ _ => rfl) (fun _ _ => rfl) (Flow.append (fun _ _ => rfl) (fun _ _ => rfl)
      (load5_thumb ver junk) (load7_thumb ver junk)) (same5_thumb ver)) (load4_thumb ver junk)) (load6_thumb ver junk)) (same4_thumb ver))
      (zeros_thumb ver)) (final_thumb ver hv)) (nop_flow true)

/-- Skipped instructions still needed in `versionHead` (at most two), for its addresses. -/
def headPot (A : List Nat) (s : Cpu) : Nat :=
  if s.pc ≤ A.getD 6 0 then 2
  else if s.pc ≤ A.getD 11 0 then if s.r 0 = 1#32 then 1 else 2
  else if s.pc ≤ A.getD 14 0 then if s.r 0 = 1#32 then 0 else 2
  else if s.pc ≤ A.getD 15 0 then if s.r 0 = 1#32 then 0 else if s.z then 1 else 2
  else if s.pc ≤ A.getD 16 0 then if s.r 0 = 1#32 then 0 else 1
  else if s.pc ≤ A.getD 17 0 then if s.r 0 = 1#32 then 0 else if s.z then 0 else 1
  else 0

theorem head_thumb {fb : W} (hfb : fb ≠ 1) (f : Cpu → Cpu) {b : Bool} {s s' : Cpu}
    (hs : step (version true fb f) b s = some s') (hlt : s.pc < 58) :
    headPot [0, 2, 6, 10, 14, 18, 22, 26, 30, 34, 38, 42, 44, 46, 48, 50, 52, 54, 56] s ≤
      (if s'.pc < 58 then headPot [0, 2, 6, 10, 14, 18, 22, 26, 30, 34, 38, 42, 44, 46, 48, 50, 52, 54, 56] s'
       else if s'.pc = 58 then 2 else 0) + cost b := by
  have hfb : fb ≠ 1#32 := hfb
  have hl1 : labAddr (version true fb f) 1 = 58 := by
    simp [version, versionHead, labAddr, Ins.isLab, ins]
  have hl2 : labAddr (version true fb f) 2 = 206 := by
    simp [version, versionHead, labAddr, Ins.isLab, ins, readVersion, four]
  unfold step at hs
  have hh : (versionHead true fb).size = 58 := by simp [versionHead, Prog.size, ins]
  rw [version_eq, fetch_append, hh, if_pos hlt, ← version_eq] at hs
  cases hf : fetch (versionHead true fb) s.pc with
  | none => rw [hf] at hs; cases hs
  | some y =>
    obtain ⟨i, sz⟩ := y
    rw [hf] at hs
    dsimp only at hs
    have ht := fetch_table 0 hf
    clear hf
    generalize version true fb f = p at *
    obtain ⟨r, z, n, v, pc, mem, ok⟩ := s
    simp [versionHead, ins, table] at ht
    rcases ht with ⟨rfl, rfl, rfl⟩ | ⟨rfl, rfl, rfl⟩ | ⟨rfl, rfl, rfl⟩ | ⟨rfl, rfl, rfl⟩ | ⟨rfl, rfl, rfl⟩ | ⟨rfl, rfl, rfl⟩ |
      ⟨rfl, rfl, rfl⟩ | ⟨rfl, rfl, rfl⟩ | ⟨rfl, rfl, rfl⟩ | ⟨rfl, rfl, rfl⟩ | ⟨rfl, rfl, rfl⟩ | ⟨rfl, rfl, rfl⟩ |
      ⟨rfl, rfl, rfl⟩ | ⟨rfl, rfl, rfl⟩ | ⟨rfl, rfl, rfl⟩ | ⟨rfl, rfl, rfl⟩ | ⟨rfl, rfl, rfl⟩ | ⟨rfl, rfl, rfl⟩ |
      ⟨rfl, rfl, rfl⟩ <;> cases b <;>
      simp only [exec, branch, Cond.holds, if_true, Bool.false_eq_true, if_false] at hs <;>
      (try simp [hl1, hl2] at hs) <;> (try (split at hs)) <;> (try simp at hs) <;> (try subst hs) <;>
      simp [headPot, cost, Armor.compare, Armor.set] <;> grind

theorem head_arm {fb : W} (hfb : fb ≠ 1) (f : Cpu → Cpu) {b : Bool} {s s' : Cpu}
    (hs : step (version false fb f) b s = some s') (hlt : s.pc < 76) :
    headPot [0, 4, 8, 12, 16, 20, 24, 28, 32, 36, 40, 44, 48, 52, 56, 60, 64, 68, 72] s ≤
      (if s'.pc < 76 then headPot [0, 4, 8, 12, 16, 20, 24, 28, 32, 36, 40, 44, 48, 52, 56, 60, 64, 68, 72] s'
       else if s'.pc = 76 then 2 else 0) + cost b := by
  have hfb : fb ≠ 1#32 := hfb
  have hl1 : labAddr (version false fb f) 1 = 76 := by
    simp [version, versionHead, labAddr, Ins.isLab, ins]
  have hl2 : labAddr (version false fb f) 2 = 296 := by
    simp [version, versionHead, labAddr, Ins.isLab, ins, readVersion, four]
  unfold step at hs
  have hh : (versionHead false fb).size = 76 := by simp [versionHead, Prog.size, ins]
  rw [version_eq, fetch_append, hh, if_pos hlt, ← version_eq] at hs
  cases hf : fetch (versionHead false fb) s.pc with
  | none => rw [hf] at hs; cases hs
  | some y =>
    obtain ⟨i, sz⟩ := y
    rw [hf] at hs
    dsimp only at hs
    have ht := fetch_table 0 hf
    clear hf
    generalize version false fb f = p at *
    obtain ⟨r, z, n, v, pc, mem, ok⟩ := s
    simp [versionHead, ins, table] at ht
    rcases ht with ⟨rfl, rfl, rfl⟩ | ⟨rfl, rfl, rfl⟩ | ⟨rfl, rfl, rfl⟩ | ⟨rfl, rfl, rfl⟩ | ⟨rfl, rfl, rfl⟩ | ⟨rfl, rfl, rfl⟩ |
      ⟨rfl, rfl, rfl⟩ | ⟨rfl, rfl, rfl⟩ | ⟨rfl, rfl, rfl⟩ | ⟨rfl, rfl, rfl⟩ | ⟨rfl, rfl, rfl⟩ | ⟨rfl, rfl, rfl⟩ |
      ⟨rfl, rfl, rfl⟩ | ⟨rfl, rfl, rfl⟩ | ⟨rfl, rfl, rfl⟩ | ⟨rfl, rfl, rfl⟩ | ⟨rfl, rfl, rfl⟩ | ⟨rfl, rfl, rfl⟩ |
      ⟨rfl, rfl, rfl⟩ <;> cases b <;>
      simp only [exec, branch, Cond.holds, if_true, Bool.false_eq_true, if_false] at hs <;>
      (try simp [hl1, hl2] at hs) <;> (try (split at hs)) <;> (try simp at hs) <;> (try subst hs) <;>
      simp [headPot, cost, Armor.compare, Armor.set] <;> grind

/-- **C55, version.** Unless a fallback is allowed, an update is accepted with at most one skipped instruction only if its version
is greater (as a signed number). -/
theorem version_skips {t : Bool} {fb : W} {ver : W → W} {junk : Cpu → Cpu} {l : List Bool} {s : Cpu} (hfb : fb ≠ 1)
    (hv : ¬ (ver 0).slt (ver 1) = true) (h : Passes (version t fb (versionCall ver junk)) l s) : 2 ≤ skips l := by
  obtain ⟨h0, s', hr, he⟩ := h
  obtain ⟨hpos, hc, φ, e1, e2⟩ := body_flow t ver junk hv
  have key : ∃ A : List Nat, headPot A s = 2 ∧ ∀ b (s s' : Cpu), step (version t fb (versionCall ver junk)) b s = some s' →
      s.pc < (versionHead t fb).size → headPot A s ≤ (if s'.pc < (versionHead t fb).size then headPot A s'
       else if s'.pc = (versionHead t fb).size then 2 else 0) + cost b := by
    cases t
    · have e : (versionHead false fb).size = 76 := by simp [versionHead, Prog.size, ins]
      rw [e]
      exact ⟨_, by unfold headPot; rw [h0, if_pos (Nat.zero_le _)], fun b s s' hs hl => head_arm hfb _ hs hl⟩
    · have e : (versionHead true fb).size = 58 := by simp [versionHead, Prog.size, ins]
      rw [e]
      exact ⟨_, by unfold headPot; rw [h0, if_pos (Nat.zero_le _)], fun b s s' hs hl => head_thumb hfb _ hs hl⟩
  obtain ⟨A, k1, k2⟩ := key
  have hp : 0 < (versionHead t fb).size := by cases t <;> simp [versionHead, Prog.size, ins]
  have hsz : (version t fb (versionCall ver junk)).size =
      (versionHead t fb).size + (versionBody t (versionCall ver junk)).size := by rw [version_eq, size_append]
  have := run_pot (p := version t fb (versionCall ver junk))
    (φ := fun s => if s.pc < (versionHead t fb).size then headPot A s
      else if s.pc < (version t fb (versionCall ver junk)).size then φ { s with pc := s.pc - (versionHead t fb).size } else 0)
    (I := fun _ => True) (G := fun s => s.pc = (version t fb (versionCall ver junk)).size)
    (by
      intro b s1 s2 _ h1
      refine ⟨trivial, ?_⟩
      by_cases hl : s1.pc < (versionHead t fb).size
      · rw [if_pos hl]
        have := k2 b s1 s2 h1 hl
        by_cases hl2 : s2.pc < (versionHead t fb).size
        · rw [if_pos hl2] at this ⊢
          exact this
        · rw [if_neg hl2] at this ⊢
          by_cases hl3 : s2.pc = (versionHead t fb).size
          · rw [if_pos hl3] at this
            rw [if_pos (by omega)]
            have := e1 { s2 with pc := s2.pc - (versionHead t fb).size } (by dsimp only; omega)
            dsimp only at this
            omega
          · rw [if_neg hl3] at this
            omega
      · rw [if_neg hl]
        have hl4 : s1.pc < (version t fb (versionCall ver junk)).size := by
          unfold step at h1
          cases hf : fetch (version t fb (versionCall ver junk)) s1.pc with
          | none => rw [hf] at h1; cases h1
          | some y => exact fetch_lt hf
        rw [if_pos hl4]
        rw [version_eq] at h1
        obtain ⟨s3, t1, t2⟩ := step_right hc hl h1
        obtain ⟨y1, y2⟩ := e2 b _ s3 t1
        subst t2
        have e3 : ({ up (versionHead t fb).size s3 with
            pc := (up (versionHead t fb).size s3).pc - (versionHead t fb).size } : Cpu) = s3 := by
          unfold up
          dsimp only
          rw [Nat.add_sub_cancel]
        have e4 : (up (versionHead t fb).size s3).pc = s3.pc + (versionHead t fb).size := rfl
        rw [e3, e4, if_neg (by omega)]
        by_cases hl5 : s3.pc < (versionBody t (versionCall ver junk)).size
        · rw [if_pos hl5] at y2
          rw [if_pos (by omega)]
          exact y2
        · rw [if_neg hl5] at y2
          rw [if_neg (by omega)]
          exact y2)
    (by
      intro s1 _ h1
      rw [if_neg (by omega), if_neg (by omega)])
    l s s' trivial hr he
  rw [if_pos (by omega), k1] at this
  exact this

/-! ## Without skipped instructions -/

/-- Without skipped instructions `p` is passed from states with `P`, and `Q` holds then. -/
def Fwd (p : Prog) (P Q : Cpu → Prop) : Prop :=
  ∀ s, s.pc = 0 → P s → ∃ n s', run p (List.replicate n false) s = some s' ∧ s'.pc = p.size ∧ Q s'

theorem run_append : ∀ (p : Prog) (l1 l2 : List Bool) (s s1 : Cpu), run p l1 s = some s1 → run p (l1 ++ l2) s = run p l2 s1 := by
  intro p l1
  induction l1 with
  | nil => intro l2 s s1 h; injection h with h; subst h; rfl
  | cons b l1 ih =>
    intro l2 s s1 h
    rw [List.cons_append, run]
    rw [run] at h
    cases hs : step p b s with
    | none => rw [hs] at h; cases h
    | some s2 => rw [hs] at h; exact ih l2 s2 s1 h

theorem exec_left {p q : Prog} {i : Ins} {s : Cpu} {sz : Nat} (hs : i.simple = true)
    (hb : ∀ c off, i = .br c off → 0 ≤ (s.pc : Int) + off) : exec (p ++ q) s sz i = exec p s sz i := by
  have := exec_up (p := p) (q := p ++ q) (s := s) (sz := sz) (n := 0) hs hb
  have e0 : up 0 s = s := rfl
  rw [e0] at this
  rw [this]
  cases exec p s sz i with
  | none => rfl
  | some x => rfl

theorem run_left {p : Prog} (q : Prog) (c1 : Closed p) : ∀ (l : List Bool) (s s' : Cpu), run p l s = some s' →
    run (p ++ q) l s = some s' := by
  intro l
  induction l with
  | nil => intro s s' h; exact h
  | cons b l ih =>
    intro s s' h
    rw [run] at h ⊢
    cases hs : step p b s with
    | none => rw [hs] at h; cases h
    | some s1 =>
      rw [hs] at h
      have : step (p ++ q) b s = some s1 := by
        unfold step at hs ⊢
        cases hf : fetch p s.pc with
        | none => rw [hf] at hs; cases hs
        | some y =>
          obtain ⟨i, sz⟩ := y
          rw [fetch_append, if_pos (fetch_lt hf), hf]
          rw [hf] at hs
          obtain ⟨x1, x2⟩ := c1 _ _ _ hf
          dsimp only at hs ⊢
          rw [exec_left x1 x2]
          exact hs
      rw [this]
      exact ih s1 s' h

theorem run_right (p : Prog) {q : Prog} (c2 : Closed q) : ∀ (l : List Bool) (s s' : Cpu), run q l s = some s' →
    run (p ++ q) l (up p.size s) = some (up p.size s') := by
  intro l
  induction l with
  | nil => intro s s' h; injection h with h; subst h; rfl
  | cons b l ih =>
    intro s s' h
    rw [run] at h ⊢
    cases hs : step q b s with
    | none => rw [hs] at h; cases h
    | some s1 =>
      rw [hs] at h
      have : step (p ++ q) b (up p.size s) = some (up p.size s1) := by
        unfold step at hs ⊢
        cases hf : fetch q s.pc with
        | none => rw [hf] at hs; cases hs
        | some y =>
          obtain ⟨i, sz⟩ := y
          have e4 : (up p.size s).pc = s.pc + p.size := rfl
          rw [fetch_append, e4, if_neg (by omega), Nat.add_sub_cancel, hf]
          rw [hf] at hs
          obtain ⟨x1, x2⟩ := c2 _ _ _ hf
          dsimp only at hs ⊢
          rw [exec_up (p := q) x1 x2]
          cases b
          · simp only [Bool.false_eq_true, if_false] at hs ⊢
            rw [hs]
            rfl
          · simp only [if_true] at hs ⊢
            injection hs with hs
            rw [← hs]
            unfold up
            dsimp only
            rw [Nat.add_right_comm]
      rw [this]
      exact ih s1 s' h

theorem Fwd.append {p q : Prog} {P Q R : Cpu → Prop} (hQ : ∀ s n, Q s → Q { s with pc := n }) (hR : ∀ s n, R s → R { s with pc := n })
    (c1 : Closed p) (c2 : Closed q) (h1 : Fwd p P Q) (h2 : Fwd q Q R) : Fwd (p ++ q) P R := by
  intro s h0 hP
  obtain ⟨n1, s1, r1, e1, q1⟩ := h1 s h0 hP
  obtain ⟨n2, s2, r2, e2, q2⟩ := h2 { s1 with pc := 0 } rfl (hQ _ _ q1)
  refine ⟨n1 + n2, up p.size s2, ?_, ?_, hR _ _ q2⟩
  · rw [← List.replicate_append_replicate, run_append _ _ _ _ _ (run_left q c1 _ _ _ r1)]
    have := run_right p c2 _ _ _ r2
    have e : up p.size { s1 with pc := 0 } = s1 := by
      unfold up
      dsimp only
      rw [Nat.zero_add, ← e1]
    rw [e] at this
    exact this
  · rw [size_append]
    show s2.pc + p.size = _
    omega

theorem Flow.closed {p : Prog} {a b : Cpu → Nat} (h : Flow p a b) : Closed p := h.2.1

theorem load5_fwd_thumb (ver : W → W) (junk : Cpu → Cpu) :
    Fwd (readVersion true 5 1 (versionCall ver junk)) (fun s => True) (fun s => s.r 5 = ver 1) := by
  intro s h0 hP
  obtain ⟨r, z, n, v, pc, mem, ok⟩ := s
  dsimp only at h0 hP
  subst h0
  refine ⟨7, ?_⟩
  simp [run, step, fetch, four, readVersion, versionCall, ins, exec, branch, Cond.holds, Armor.set, Armor.compare, flagged, Prog.size,
    List.replicate, hP]

theorem load5_fwd_arm (ver : W → W) (junk : Cpu → Cpu) :
    Fwd (readVersion false 5 1 (versionCall ver junk)) (fun s => True) (fun s => s.r 5 = ver 1) := by
  intro s h0 hP
  obtain ⟨r, z, n, v, pc, mem, ok⟩ := s
  dsimp only at h0 hP
  subst h0
  refine ⟨7, ?_⟩
  simp [run, step, fetch, four, readVersion, versionCall, ins, exec, branch, Cond.holds, Armor.set, Armor.compare, flagged, Prog.size,
    List.replicate, hP]

theorem load7_fwd_thumb (ver : W → W) (junk : Cpu → Cpu) :
    Fwd (readVersion true 7 1 (versionCall ver junk)) (fun s => s.r 5 = ver 1) (fun s => s.r 5 = ver 1 ∧ s.r 7 = ver 1) := by
  intro s h0 hP
  obtain ⟨r, z, n, v, pc, mem, ok⟩ := s
  dsimp only at h0 hP
  subst h0
  refine ⟨7, ?_⟩
  simp [run, step, fetch, four, readVersion, versionCall, ins, exec, branch, Cond.holds, Armor.set, Armor.compare, flagged, Prog.size,
    List.replicate, hP]

theorem load7_fwd_arm (ver : W → W) (junk : Cpu → Cpu) :
    Fwd (readVersion false 7 1 (versionCall ver junk)) (fun s => s.r 5 = ver 1) (fun s => s.r 5 = ver 1 ∧ s.r 7 = ver 1) := by
  intro s h0 hP
  obtain ⟨r, z, n, v, pc, mem, ok⟩ := s
  dsimp only at h0 hP
  subst h0
  refine ⟨7, ?_⟩
  simp [run, step, fetch, four, readVersion, versionCall, ins, exec, branch, Cond.holds, Armor.set, Armor.compare, flagged, Prog.size,
    List.replicate, hP]

theorem same5_fwd_thumb (ver : W → W) :
    Fwd (four true .ne (ins true 2 (.cmpr 5 7)) (ins true 2 (.cmpr 5 7))) (fun s => s.r 5 = ver 1 ∧ s.r 7 = ver 1) (fun s => s.r 5 = ver 1 ∧ s.r 7 = ver 1) := by
  intro s h0 hP
  obtain ⟨r, z, n, v, pc, mem, ok⟩ := s
  dsimp only at h0 hP
  subst h0
  refine ⟨8, ?_⟩
  simp [run, step, fetch, four, readVersion, versionCall, ins, exec, branch, Cond.holds, Armor.set, Armor.compare, flagged, Prog.size,
    List.replicate, hP]

theorem same5_fwd_arm (ver : W → W) :
    Fwd (four false .ne (ins false 2 (.cmpr 5 7)) (ins false 2 (.cmpr 5 7))) (fun s => s.r 5 = ver 1 ∧ s.r 7 = ver 1) (fun s => s.r 5 = ver 1 ∧ s.r 7 = ver 1) := by
  intro s h0 hP
  obtain ⟨r, z, n, v, pc, mem, ok⟩ := s
  dsimp only at h0 hP
  subst h0
  refine ⟨8, ?_⟩
  simp [run, step, fetch, four, readVersion, versionCall, ins, exec, branch, Cond.holds, Armor.set, Armor.compare, flagged, Prog.size,
    List.replicate, hP]

theorem load4_fwd_thumb (ver : W → W) (junk : Cpu → Cpu) :
    Fwd (readVersion true 4 0 (versionCall ver junk)) (fun s => s.r 5 = ver 1 ∧ s.r 7 = ver 1) (fun s => s.r 5 = ver 1 ∧ s.r 7 = ver 1 ∧ s.r 4 = ver 0) := by
  intro s h0 hP
  obtain ⟨r, z, n, v, pc, mem, ok⟩ := s
  dsimp only at h0 hP
  subst h0
  refine ⟨7, ?_⟩
  simp [run, step, fetch, four, readVersion, versionCall, ins, exec, branch, Cond.holds, Armor.set, Armor.compare, flagged, Prog.size,
    List.replicate, hP]

theorem load4_fwd_arm (ver : W → W) (junk : Cpu → Cpu) :
    Fwd (readVersion false 4 0 (versionCall ver junk)) (fun s => s.r 5 = ver 1 ∧ s.r 7 = ver 1) (fun s => s.r 5 = ver 1 ∧ s.r 7 = ver 1 ∧ s.r 4 = ver 0) := by
  intro s h0 hP
  obtain ⟨r, z, n, v, pc, mem, ok⟩ := s
  dsimp only at h0 hP
  subst h0
  refine ⟨7, ?_⟩
  simp [run, step, fetch, four, readVersion, versionCall, ins, exec, branch, Cond.holds, Armor.set, Armor.compare, flagged, Prog.size,
    List.replicate, hP]

theorem load6_fwd_thumb (ver : W → W) (junk : Cpu → Cpu) :
    Fwd (readVersion true 6 0 (versionCall ver junk)) (fun s => s.r 5 = ver 1 ∧ s.r 7 = ver 1 ∧ s.r 4 = ver 0) (fun s => s.r 5 = ver 1 ∧ s.r 7 = ver 1 ∧ s.r 4 = ver 0 ∧ s.r 6 = ver 0) := by
  intro s h0 hP
  obtain ⟨r, z, n, v, pc, mem, ok⟩ := s
  dsimp only at h0 hP
  subst h0
  refine ⟨7, ?_⟩
  simp [run, step, fetch, four, readVersion, versionCall, ins, exec, branch, Cond.holds, Armor.set, Armor.compare, flagged, Prog.size,
    List.replicate, hP]

theorem load6_fwd_arm (ver : W → W) (junk : Cpu → Cpu) :
    Fwd (readVersion false 6 0 (versionCall ver junk)) (fun s => s.r 5 = ver 1 ∧ s.r 7 = ver 1 ∧ s.r 4 = ver 0) (fun s => s.r 5 = ver 1 ∧ s.r 7 = ver 1 ∧ s.r 4 = ver 0 ∧ s.r 6 = ver 0) := by
  intro s h0 hP
  obtain ⟨r, z, n, v, pc, mem, ok⟩ := s
  dsimp only at h0 hP
  subst h0
  refine ⟨7, ?_⟩
  simp [run, step, fetch, four, readVersion, versionCall, ins, exec, branch, Cond.holds, Armor.set, Armor.compare, flagged, Prog.size,
    List.replicate, hP]

theorem same4_fwd_thumb (ver : W → W) :
    Fwd (four true .ne (ins true 2 (.cmpr 4 6)) (ins true 2 (.cmpr 4 6))) (fun s => s.r 5 = ver 1 ∧ s.r 7 = ver 1 ∧ s.r 4 = ver 0 ∧ s.r 6 = ver 0) (fun s => s.r 5 = ver 1 ∧ s.r 7 = ver 1 ∧ s.r 4 = ver 0 ∧ s.r 6 = ver 0) := by
  intro s h0 hP
  obtain ⟨r, z, n, v, pc, mem, ok⟩ := s
  dsimp only at h0 hP
  subst h0
  refine ⟨8, ?_⟩
  simp [run, step, fetch, four, readVersion, versionCall, ins, exec, branch, Cond.holds, Armor.set, Armor.compare, flagged, Prog.size,
    List.replicate, hP]

theorem same4_fwd_arm (ver : W → W) :
    Fwd (four false .ne (ins false 2 (.cmpr 4 6)) (ins false 2 (.cmpr 4 6))) (fun s => s.r 5 = ver 1 ∧ s.r 7 = ver 1 ∧ s.r 4 = ver 0 ∧ s.r 6 = ver 0) (fun s => s.r 5 = ver 1 ∧ s.r 7 = ver 1 ∧ s.r 4 = ver 0 ∧ s.r 6 = ver 0) := by
  intro s h0 hP
  obtain ⟨r, z, n, v, pc, mem, ok⟩ := s
  dsimp only at h0 hP
  subst h0
  refine ⟨8, ?_⟩
  simp [run, step, fetch, four, readVersion, versionCall, ins, exec, branch, Cond.holds, Armor.set, Armor.compare, flagged, Prog.size,
    List.replicate, hP]

theorem zeros_fwd_thumb (ver : W → W) :
    Fwd ([ins true 4 (.movi 0 0), ins true 4 (.movi 0 0), ins true 4 (.movi 0 0)]) (fun s => s.r 5 = ver 1 ∧ s.r 7 = ver 1 ∧ s.r 4 = ver 0 ∧ s.r 6 = ver 0) (fun s => s.r 5 = ver 1 ∧ s.r 7 = ver 1 ∧ s.r 4 = ver 0 ∧ s.r 6 = ver 0) := by
  intro s h0 hP
  obtain ⟨r, z, n, v, pc, mem, ok⟩ := s
  dsimp only at h0 hP
  subst h0
  refine ⟨3, ?_⟩
  simp [run, step, fetch, four, readVersion, versionCall, ins, exec, branch, Cond.holds, Armor.set, Armor.compare, flagged, Prog.size,
    List.replicate, hP]

theorem zeros_fwd_arm (ver : W → W) :
    Fwd ([ins false 4 (.movi 0 0), ins false 4 (.movi 0 0), ins false 4 (.movi 0 0)]) (fun s => s.r 5 = ver 1 ∧ s.r 7 = ver 1 ∧ s.r 4 = ver 0 ∧ s.r 6 = ver 0) (fun s => s.r 5 = ver 1 ∧ s.r 7 = ver 1 ∧ s.r 4 = ver 0 ∧ s.r 6 = ver 0) := by
  intro s h0 hP
  obtain ⟨r, z, n, v, pc, mem, ok⟩ := s
  dsimp only at h0 hP
  subst h0
  refine ⟨3, ?_⟩
  simp [run, step, fetch, four, readVersion, versionCall, ins, exec, branch, Cond.holds, Armor.set, Armor.compare, flagged, Prog.size,
    List.replicate, hP]

theorem final_fwd_thumb (ver : W → W) (hv : ¬ (ver 0#32 - ver 1#32).msb = (((ver 0#32).msb != (ver 1#32).msb) && ((ver 0#32 - ver 1#32).msb != (ver 0#32).msb))) :
    Fwd (four true .ge (ins true 2 (.cmpr 4 5)) (ins true 2 (.cmpr 6 7))) (fun s => s.r 5 = ver 1 ∧ s.r 7 = ver 1 ∧ s.r 4 = ver 0 ∧ s.r 6 = ver 0) (fun s => True) := by
  intro s h0 hP
  obtain ⟨r, z, n, v, pc, mem, ok⟩ := s
  dsimp only at h0 hP
  subst h0
  refine ⟨8, ?_⟩
  simp [run, step, fetch, four, readVersion, versionCall, ins, exec, branch, Cond.holds, Armor.set, Armor.compare, flagged, Prog.size,
    List.replicate, hP, hv]

theorem final_fwd_arm (ver : W → W) (hv : ¬ (ver 0#32 - ver 1#32).msb = (((ver 0#32).msb != (ver 1#32).msb) && ((ver 0#32 - ver 1#32).msb != (ver 0#32).msb))) :
    Fwd (four false .ge (ins false 2 (.cmpr 4 5)) (ins false 2 (.cmpr 6 7))) (fun s => s.r 5 = ver 1 ∧ s.r 7 = ver 1 ∧ s.r 4 = ver 0 ∧ s.r 6 = ver 0) (fun s => True) := by
  intro s h0 hP
  obtain ⟨r, z, n, v, pc, mem, ok⟩ := s
  dsimp only at h0 hP
  subst h0
  refine ⟨8, ?_⟩
  simp [run, step, fetch, four, readVersion, versionCall, ins, exec, branch, Cond.holds, Armor.set, Armor.compare, flagged, Prog.size,
    List.replicate, hP, hv]

theorem nop_fwd_thumb  :
    Fwd ([{ ins := .lab 2, size := 0 }, ins true 2 .nop]) (fun s => True) (fun s => True) := by
  intro s h0 hP
  obtain ⟨r, z, n, v, pc, mem, ok⟩ := s
  dsimp only at h0 hP
  subst h0
  refine ⟨1, ?_⟩
  simp [run, step, fetch, four, readVersion, versionCall, ins, exec, branch, Cond.holds, Armor.set, Armor.compare, flagged, Prog.size,
    List.replicate, hP]

theorem nop_fwd_arm  :
    Fwd ([{ ins := .lab 2, size := 0 }, ins false 2 .nop]) (fun s => True) (fun s => True) := by
  intro s h0 hP
  obtain ⟨r, z, n, v, pc, mem, ok⟩ := s
  dsimp only at h0 hP
  subst h0
  refine ⟨1, ?_⟩
  simp [run, step, fetch, four, readVersion, versionCall, ins, exec, branch, Cond.holds, Armor.set, Armor.compare, flagged, Prog.size,
    List.replicate, hP]

theorem body_fwd (t : Bool) (ver : W → W) (junk : Cpu → Cpu) (hv : (ver 0).slt (ver 1) = true) :
    Closed (versionBody t (versionCall ver junk)) ∧
      Fwd (versionBody t (versionCall ver junk)) (fun _ => True) (fun _ => True) := by
  have hv : ¬ (ver 0#32 - ver 1#32).msb = (((ver 0#32).msb != (ver 1#32).msb) && ((ver 0#32 - ver 1#32).msb != (ver 0#32).msb)) :=
    fun h => (ge_iff _ _).1 h hv
  cases t
  · have c1 := (load5_arm ver junk).closed
    have c2 := (load7_arm ver junk).closed
    have c3 := (same5_arm ver).closed
    have c4 := (load4_arm ver junk).closed
    have c5 := (load6_arm ver junk).closed
    have c6 := (same4_arm ver).closed
    have c7 := (zeros_arm ver).closed
    have c8 := (final_arm (fun _ => 0) rfl).closed
    have c9 := (nop_flow false).closed
    have d2 := c1.append c2
    have d3 := d2.append c3
    have d4 := d3.append c4
    have d5 := d4.append c5
    have d6 := d5.append c6
    have d7 := d6.append c7
    have d8 := d7.append c8
    refine ⟨d8.append c9, ?_⟩
    exact Fwd.append (fun _ _ h => h) (fun _ _ h => h) d8 c9 (Fwd.append (fun _ _ h => h) (fun _ _ h => h) d7 c8
      (Fwd.append (fun _ _ h => h) (fun _ _ h => h) d6 c7 (Fwd.append (fun _ _ h => h) (fun _ _ h => h) d5 c6
      (Fwd.append (fun _ _ h => h) (fun _ _ h => h) d4 c5 (Fwd.append (fun _ _ h => h) (fun _ _ h => h) d3 c4
      (Fwd.append (fun _ _ h => h) (fun _ _ h => h) d2 c3 (Fwd.append (fun _ _ h => h) (fun _ _ h => h) c1 c2
      (load5_fwd_arm ver junk) (load7_fwd_arm ver junk)) (same5_fwd_arm ver)) (load4_fwd_arm ver junk)) (load6_fwd_arm ver junk))
      (same4_fwd_arm ver)) (zeros_fwd_arm ver)) (final_fwd_arm ver hv)) nop_fwd_arm
  · have c1 := (load5_thumb ver junk).closed
    have c2 := (load7_thumb ver junk).closed
    have c3 := (same5_thumb ver).closed
    have c4 := (load4_thumb ver junk).closed
    have c5 := (load6_thumb ver junk).closed
    have c6 := (same4_thumb ver).closed
    have c7 := (zeros_thumb ver).closed
    have c8 := (final_thumb (fun _ => 0) rfl).closed
    have c9 := (nop_flow true).closed
    have d2 := c1.append c2
    have d3 := d2.append c3
    have d4 := d3.append c4
    have d5 := d4.append c5
    have d6 := d5.append c6
    have d7 := d6.append c7
    have d8 := d7.append c8
    refine ⟨d8.append c9, ?_⟩
    exact Fwd.append (fun _ _ h => h) (fun _ _ h => h) d8 c9 (Fwd.append (fun _ _ h => h) (fun _ _ h => h) d7 c8
      (Fwd.append (fun _ _ h => h) (fun _ _ h => h) d6 c7 (Fwd.append (fun _ _ h => h) (fun _ _ h => h) d5 c6
      (Fwd.append (fun _ _ h => h) (fun _ _ h => h) d4 c5 (Fwd.append (fun _ _ h => h) (fun _ _ h => h) d3 c4
      (Fwd.append (fun _ _ h => h) (fun _ _ h => h) d2 c3 (Fwd.append (fun _ _ h => h) (fun _ _ h => h) c1 c2
      (load5_fwd_thumb ver junk) (load7_fwd_thumb ver junk)) (same5_fwd_thumb ver)) (load4_fwd_thumb ver junk))
      (load6_fwd_thumb ver junk)) (same4_fwd_thumb ver)) (zeros_fwd_thumb ver)) (final_fwd_thumb ver hv)) nop_fwd_thumb

theorem label1 (t : Bool) (fb : W) (f : Cpu → Cpu) : labAddr (version t fb f) 1 = (versionHead t fb).size := by
  cases t <;> simp [version, versionHead, labAddr, Ins.isLab, ins, Prog.size]

theorem label2 (t : Bool) (fb : W) (f : Cpu → Cpu) :
    labAddr (version t fb f) 2 + (ins t 2 .nop).size = (version t fb f).size := by
  cases t <;> simp [version, versionHead, labAddr, Ins.isLab, ins, Prog.size, readVersion, four]

/-- One step in the head. -/
theorem step_head {t : Bool} {fb : W} {f : Cpu → Cpu} {s : Cpu} (h : s.pc < (versionHead t fb).size) :
    step (version t fb f) false s = match fetch (versionHead t fb) s.pc with
      | none => none
      | some (i, sz) => exec (version t fb f) s sz i := by
  unfold step
  rw [version_eq, fetch_append, if_pos h, ← version_eq]
  cases fetch (versionHead t fb) s.pc with
  | none => rfl
  | some y => rfl

/-- If no fallback is allowed, the head leads to the comparison. -/
theorem head_check (t : Bool) (fb : W) (f : Cpu → Cpu) (hfb : fb ≠ 1) (s : Cpu) (h0 : s.pc = 0) :
    ∃ s', run (version t fb f) (List.replicate 14 false) s = some s' ∧ s'.pc = (versionHead t fb).size := by
  have hfb : fb ≠ 1#32 := hfb
  have hl := label1 t fb f
  have hst := fun s h => @step_head t fb f s h
  generalize version t fb f = p at *
  obtain ⟨r, z, n, v, pc, mem, ok⟩ := s
  dsimp only at h0
  subst h0
  cases t <;>
    simp [run, hst, hl, fetch, versionHead, ins, exec, branch, Cond.holds, Armor.set, Armor.compare, flagged, Prog.size,
      List.replicate, hfb]

/-- If a fallback is allowed, the head leads to the end. -/
theorem head_skip (t : Bool) (f : Cpu → Cpu) (s : Cpu) (h0 : s.pc = 0) :
    ∃ s', run (version t 1 f) (List.replicate 19 false) s = some s' ∧ s'.pc = labAddr (version t 1 f) 2 := by
  have hst := fun s h => @step_head t 1 f s h
  generalize version t 1 f = p at *
  obtain ⟨r, z, n, v, pc, mem, ok⟩ := s
  dsimp only at h0
  subst h0
  cases t <;>
    simp [run, hst, fetch, versionHead, ins, exec, branch, Cond.holds, Armor.set, Armor.compare, flagged, Prog.size,
      List.replicate]

/-- **C55, version.** Without skipped instructions an update with a greater version is accepted, and any if a fallback is allowed. -/
theorem version_pass (t : Bool) (fb : W) (ver : W → W) (junk : Cpu → Cpu) (hv : fb = 1 ∨ (ver 0).slt (ver 1) = true) (s : Cpu)
    (h0 : s.pc = 0) : ∃ n, Passes (version t fb (versionCall ver junk)) (List.replicate n false) s := by
  by_cases hfb : fb = 1
  · subst hfb
    obtain ⟨s1, r1, e1⟩ := head_skip t (versionCall ver junk) s h0
    refine ⟨19 + 1, h0, up (ins t 2 .nop).size s1, ?_, ?_⟩
    · rw [← List.replicate_append_replicate, run_append _ _ _ _ _ r1]
      have hl := label2 t 1 (versionCall ver junk)
      have hf : fetch (version t 1 (versionCall ver junk)) s1.pc = some (.nop, (ins t 2 .nop).size) := by
        rw [e1]
        cases t <;> simp [version, versionHead, labAddr, Ins.isLab, ins, readVersion, four, fetch]
      rw [show List.replicate 1 false = [false] from rfl, run, step, hf]
      rfl
    · rw [← label2, ← e1]
      rfl
  · have hv : (ver 0).slt (ver 1) = true := hv.resolve_left hfb
    obtain ⟨s1, r1, e1⟩ := head_check t fb (versionCall ver junk) hfb s h0
    obtain ⟨hc, hw⟩ := body_fwd t ver junk hv
    obtain ⟨n, s2, r2, e2, _⟩ := hw { s1 with pc := 0 } rfl trivial
    have := run_right (versionHead t fb) hc _ _ _ r2
    have e : up (versionHead t fb).size { s1 with pc := 0 } = s1 := by
      unfold up
      dsimp only
      rw [Nat.zero_add, ← e1]
    rw [e, ← version_eq] at this
    refine ⟨14 + n, h0, up (versionHead t fb).size s2, ?_, ?_⟩
    · rw [← List.replicate_append_replicate, run_append _ _ _ _ _ r1]
      exact this
    · rw [version_eq, size_append]
      show s2.pc + _ = _
      omega

/-- Without skipped instructions: accepted exactly if allowed. -/
theorem version_iff (t : Bool) (fb : W) (ver : W → W) (junk : Cpu → Cpu) (s : Cpu) (h0 : s.pc = 0) :
    (∃ n, Passes (version t fb (versionCall ver junk)) (List.replicate n false) s) ↔
      fb = 1 ∨ (ver 0).slt (ver 1) = true := by
  constructor
  · intro ⟨n, h⟩
    by_cases hfb : fb = 1
    · exact Or.inl hfb
    · by_cases hv : (ver 0).slt (ver 1) = true
      · exact Or.inr hv
      · have := version_skips hfb hv h
        rw [skips_none] at this
        omega
  · exact fun h => version_pass t fb ver junk h s h0

/-- Version 3 over version 2. -/
example : (2#32).slt 3#32 = true := by decide

/-- **Finding.** Versions are compared as signed numbers: over firmware of version 1 the update 0x80000001, which the C code has
accepted as newer, is never started (the processor stays in the check), whereas the older version 1 would pass over 0x80000001. -/
theorem version_signed (t : Bool) (junk : Cpu → Cpu) (s : Cpu) (h0 : s.pc = 0) :
    (¬ ∃ n, Passes (version t 0 (versionCall (fun p => if p = 0 then 1 else 0x80000001) junk)) (List.replicate n false) s) ∧
      ∃ n, Passes (version t 0 (versionCall (fun p => if p = 0 then 0x80000001 else 1) junk)) (List.replicate n false) s := by
  refine ⟨fun h => ?_, version_pass _ _ _ _ (Or.inr (by decide)) s h0⟩
  rcases (version_iff _ _ _ _ s h0).1 h with h | h <;> exact absurd h (by decide)

/-- Decisions with the two calls for the BOOT partition skipped. -/
def twoSkips : List Bool :=
  List.replicate 39 false ++ true :: List.replicate 6 false ++ true :: List.replicate 23 false

/-- **Finding.** Two skipped instructions are enough to install version 2 over version 9: if both calls that read the version of
BOOT are skipped, `r0` is still 0, the number of the partition, which counts as version 0. -/
theorem version_two_skips (s : Cpu) (h0 : s.pc = 0) :
    Passes (version true 0 (versionCall (fun p => if p = 0 then 9 else 2) id)) twoSkips s ∧ skips twoSkips = 2 := by
  obtain ⟨r, z, n, v, pc, mem, ok⟩ := s
  dsimp only at h0
  subst h0
  have h : (run (version true 0 (versionCall (fun p => if p = 0 then 9 else 2) id)) twoSkips ⟨r, z, n, v, 0, mem, ok⟩).map Cpu.pc =
      some (version true 0 (versionCall (fun p => if p = 0 then 9 else 2) id)).size := by kernel_eq
  refine ⟨⟨rfl, ?_⟩, rfl⟩
  cases hr : run (version true 0 (versionCall (fun p => if p = 0 then 9 else 2) id)) twoSkips ⟨r, z, n, v, 0, mem, ok⟩ with
  | none => rw [hr] at h; cases h
  | some s' =>
    rw [hr] at h
    injection h with h
    exact ⟨s', rfl, h⟩

end Verif.Armor
