import Verif.NvmThms

/-!
# Flags on write-once flash: the magic, examples and findings
-/

namespace Verif

namespace NvCfg

theorem select_none {c : NvCfg} {m : Mem} (h : ∀ b, ¬ c.magic m b) : c.select m = false := by
  unfold select
  rw [if_neg (fun hh => h _ hh.1), if_neg (fun hh => h _ hh.2), if_pos ⟨h _, h _⟩]

theorem data_magic {c : NvCfg} (w : c.WF) (m : Mem) : c.Data (c.magicCache m) (fun j => m (c.base (c.select m) + c.e - (4 + j))) := by
  have := w.e4
  refine ⟨?_, ?_⟩
  · unfold le32 magicCache
    rw [if_pos (by omega), if_pos (by omega), if_pos (by omega), if_pos (by omega), Nat.sub_self, Nat.add_sub_cancel_left, Nat.add_sub_cancel_left,
      Nat.add_sub_cancel_left]
    decide
  · intro j h3 h4
    unfold magicCache
    dsimp only
    rw [if_neg (by omega), show c.base (c.select m) + (c.e - (4 + j)) = c.base (c.select m) + c.e - (4 + j) by omega]

/-- Operations that complete before the power loss. -/
theorem crash_prefix {c : NvCfg} {rest : List NvOp} : ∀ (pre : List NvOp) {m m' : Mem}, c.exec pre m = some m' → c.Crash (pre ++ rest) m m' := by
  intro pre
  induction pre with
  | nil => intro m m' h; cases h; exact .here
  | cons op pre ih =>
    intro m m' h
    cases op with
    | erase b => exact .erase (ih h)
    | write b k d =>
      unfold exec at h
      split at h
      · exact .write fun _ => ih h
      · cases h

theorem exec_append {c : NvCfg} {rest : List NvOp} : ∀ (pre : List NvOp) (m : Mem), c.exec (pre ++ rest) m = (c.exec pre m).bind (c.exec rest) := by
  intro pre
  induction pre with
  | nil => intro m; rfl
  | cons op pre ih =>
    intro m
    cases op with
    | erase b => exact ih _
    | write b k d =>
      rw [List.cons_append]
      unfold exec
      split
      · exact ih _
      · rfl

/-- A unit that is not erased makes the writes of a sector fail. -/
theorem exec_none {c : NvCfg} {b : Bool} {d : Mem} {rest : List NvOp} (n : Nat) :
    ∀ (j : Nat) (m : Mem) (k : Nat), j ≤ k → k < j + n → ¬ c.blank m b k →
      c.exec ((List.range' j n).map (fun k => NvOp.write b k d) ++ rest) m = none := by
  induction n with
  | zero => intro j m k h1 h2; omega
  | succ n ih =>
    intro j m k h1 h2 h3
    rw [List.range'_succ, List.map_cons, List.cons_append]
    unfold exec
    by_cases hj : j = k
    · subst hj
      exact if_neg h3
    · split
      · refine ih (j + 1) _ k (by omega) (by omega) ?_
        intro hb
        apply h3
        intro i hi
        have hlt : (j + 1) * c.u ≤ k * c.u := Nat.mul_le_mul_right _ (by omega)
        rw [Nat.add_mul, Nat.one_mul] at hlt
        rw [← hb i hi]
        exact (if_neg (by omega)).symm
      · rfl

end NvCfg

open NvCfg

/-- Setting the magic when no sector has it: allowed when the sector before the last is erased, or its last word is not (it is erased then). The flags can
then be read and are the bytes of the last sector; after a power loss there is still no magic, or the flags can be read. -/
theorem nvm_magic_partial {c : NvCfg} (w : c.WF) {m : Mem} (hm : ∀ b, ¬ c.magic m b)
    (hb : (∀ i < c.ss, m (c.base true + i) = c.er) ∨ le32 m (c.base true + c.ss - 4) ≠ c.erWord) :
    (∃ m', c.exec (c.magicOps m) m = some m' ∧ c.Reads m' (fun j => m (c.base false + c.e - (4 + j)))) ∧
    ∀ m', c.Crash (c.magicOps m) m m' → (∀ b, ¬ c.magic m' b) ∨ c.Reads m' (fun j => m (c.base false + c.e - (4 + j))) := by
  have hs := select_none hm
  have hd := data_magic w m
  rw [hs] at hd
  have after : ∀ {m1 m' : Mem}, (∀ x, ¬ c.inSec true x → m1 x = m x) → c.Part true (c.magicCache m) m1 0 →
      c.Crash (c.writes true (c.magicCache m) ++ [.erase false]) m1 m' →
      (∀ b, ¬ c.magic m' b) ∨ c.Reads m' (fun j => m (c.base false + c.e - (4 + j))) := by
    intro m1 m' h1 h2 hc
    have hf : ∀ {m' : Mem}, (∀ x, ¬ c.inSec true x → m' x = m1 x) → ¬ c.magic m' false := by
      intro m' h
      rw [magic_congr w (m := m)]
      · exact hm false
      · intro x hx _
        rw [h x (apart w hx), h1 x (apart w hx)]
    rcases crash_move (s := false) w hd h2 hc with ⟨g1, g2⟩ | ⟨g1, g2⟩ | g1
    · left
      intro b
      cases b
      · exact hf g2
      · exact g1
    · right
      exact g1.one (hf g2)
    · exact .inr g1
  unfold magicOps
  rw [hs]
  by_cases hw : le32 m (c.base true + c.ss - 4) ≠ c.erWord
  · have he : c.selOps false m = [.erase true] := by
      unfold selOps
      rw [if_neg (by decide), hs]
      exact if_pos hw
    rw [he]
    refine ⟨exec_move (s := false) w hd (part_erased true _ _), ?_⟩
    intro m' hc
    rw [List.cons_append] at hc
    cases hc with
    | here => exact .inl hm
    | torn t =>
      obtain ⟨t1, t2⟩ := torn_erase_out t
      left
      intro b
      cases b
      · rw [magic_congr w (m := m)]
        · exact hm false
        · intro x hx _
          exact t2 x (apart w hx)
      · exact t1
    | erase hc => exact after (fun x hx => erase_out hx) (part_erased true _ _) hc
  · have he : c.selOps false m = [] := by
      unfold selOps
      rw [if_neg (by decide), hs]
      exact if_neg hw
    have hp : c.Part true (c.magicCache m) m 0 := by
      intro i hi
      rw [Nat.zero_mul, if_neg (by omega)]
      exact (hb.resolve_right hw) i hi
    rw [he]
    exact ⟨exec_move (s := false) w hd hp, fun m' hc => after (fun _ _ => rfl) hp hc⟩

/-- **Finding (C11).** `partition_magic_write` does not erase the sector it writes to (`/repo/src/libwolfboot.c:341-346`; `trailer_write` does): with
bytes in the sector before the last and its last word erased, it writes to a unit that is not erased. -/
theorem nvm_magic_rewrite {c : NvCfg} (w : c.WF) {m : Mem} (hm : ∀ b, ¬ c.magic m b) (hw : le32 m (c.base true + c.ss - 4) = c.erWord)
    {i : Nat} (hi : i < c.ss) (hx : m (c.base true + i) ≠ c.er) : c.exec (c.magicOps m) m = none := by
  have hs := select_none hm
  have he : c.selOps false m = [] := by
    unfold selOps
    rw [if_neg (by decide), hs]
    exact if_neg (fun h => h hw)
  unfold magicOps writes
  rw [he, hs, List.nil_append, List.range_eq_range']
  refine exec_none _ 0 m (i / c.u) (Nat.zero_le _) ?_ ?_
  · rw [Nat.zero_add]
    exact Nat.div_lt_div_of_lt_of_dvd w.dvd hi
  · intro hb
    apply hx
    rw [← hb (i % c.u) (Nat.mod_lt _ w.pos), Nat.add_assoc, Nat.div_add_mod']
    rfl

/-- **Finding (C11).** `hal_set_key` selects the sector while the flash is locked and does not erase the one it writes to
(`/repo/src/libwolfboot.c:1380-1410`): when both sectors hold flags, as after a power loss before the last erase of `trailer_write`, it writes to units
that are not erased. -/
theorem nvm_key_rewrite {c : NvCfg} (w : c.WF) {m : Mem} (hm : ∀ b, c.magic m b) (key : List Byte) : c.exec (c.keyOps m key) m = none := by
  have := w.e4; have := w.ess
  unfold keyOps writes
  rw [show c.selOps true m = [] from rfl, List.nil_append, List.range_eq_range']
  refine exec_none _ 0 m ((c.e - 1) / c.u) (Nat.zero_le _) ?_ ?_
  · rw [Nat.zero_add]
    exact Nat.div_lt_div_of_lt_of_dvd w.dvd (by omega)
  · intro hb
    have := hb ((c.e - 1) % c.u) (Nat.mod_lt _ w.pos)
    rw [Nat.add_assoc, Nat.div_add_mod', ← Nat.add_sub_assoc (by omega)] at this
    exact no_magic w this (hm _)

/-- **Finding (C11).** With `FLAGS_HOME` the flags of both partitions are in the same two sectors, and the selection for one partition does not look at
the flags of the other (`/repo/src/libwolfboot.c:224-244,270-276`). Reading the flags of UPDATE when it has none erases those of BOOT if they are in
the sector before the last. `c` is the configuration of BOOT, `c'` that of UPDATE. -/
theorem nvm_flags_home {c c' : NvCfg} (w : c.WF) (h1 : c'.ss = c.ss) (h2 : c'.a = c.a) (h3 : c'.er = c.er) (h4 : c.e = c.ss) {m : Mem}
    {F : Nat → Byte} (hr : c.Has m true F) (hn : ¬ c.magic m false) (hu : ∀ b, ¬ c'.magic m b) :
    c.Reads m F ∧ ∃ m', c'.exec (c'.ops m (.read false)) m = some m' ∧ ∀ b, ¬ c.magic m' b := by
  have := w.e4
  have hs := select_none hu
  have hb : ∀ b, c'.base b = c.base b := by intro b; unfold base; rw [h1, h2]
  refine ⟨hr.one hn, c'.apply m (.erase true), ?_, ?_⟩
  · have : c'.selOps false m = [.erase true] := by
      unfold selOps
      rw [if_neg (by decide), hs]
      refine if_pos ?_
      rw [Bool.not_false, hb, h1, ← h4, hr.1]
      unfold erWord
      rw [h3]
      rcases w.erased with e | e <;> rw [e] <;> decide
    unfold NvCfg.ops
    dsimp only
    rw [this]
    rfl
  · have hap : c'.apply m (.erase true) = c.apply m (.erase true) := by
      unfold NvCfg.apply
      dsimp only
      rw [hb, h1, h3]
    rw [hap]
    intro b
    cases b
    · rw [magic_congr w (m := m)]
      · exact hn
      · intro x hx _
        exact erase_out (apart w hx)
    · exact erase_magic w m true

/-- **Finding (C11).** When a write fails, `trailer_write` erases the old copy all the same (`/repo/src/libwolfboot.c:309-318`): unless the magic was written
before, no sector has flags any more. -/
theorem nvm_write_error {c : NvCfg} (w : c.WF) (m : Mem) (i : Nat) (v : Byte) {j : Nat} (hj : j * c.u < c.e) (hj' : j ≤ c.ss / c.u) :
    ∃ m', c.exec (c.failOps m i v j) m = some m' ∧ ∀ b, ¬ c.magic m' b := by
  have := w.e4; have := w.ess
  have key : ∀ m1 : Mem, ∃ m', c.exec (.erase (!c.select m) :: ((c.writes (!c.select m) (c.cache m i v)).take j ++ [.erase (c.select m)])) m1 = some m' ∧
      ∀ b, ¬ c.magic m' b := by
    intro m1
    obtain ⟨m2, g1, g2, g3⟩ := exec_writes w [.erase (c.select m)] j 0 _ (by omega) (part_erased (!c.select m) (c.cache m i v) m1)
    refine ⟨c.apply m2 (.erase (c.select m)), ?_, ?_⟩
    · unfold writes
      rw [← List.map_take, List.take_range, Nat.min_eq_left hj', List.range_eq_range']
      exact g1
    · rw [Nat.zero_add] at g2
      have hd : ¬ c.magic (c.apply m2 (.erase (c.select m))) (!c.select m) := by
        refine no_magic w ?_
        rw [erase_out, show c.base (!c.select m) + c.e - 1 = c.base (!c.select m) + (c.e - 1) by omega, g2 _ (by omega), if_neg (by omega)]
        have := apart w (b := !c.select m) (x := c.base (!c.select m) + c.e - 1) ⟨by omega, by omega⟩
        rw [Bool.not_not] at this
        exact this
      have hs := erase_magic w m2 (c.select m)
      intro b
      cases hb : c.select m <;> rw [hb] at hd hs <;> cases b <;> first | exact hs | exact hd
  unfold failOps
  rcases c.selOps_cases false m with h | h <;> rw [h]
  · exact key m
  · exact key _

namespace NvDemo

/-- Sectors of 32 bytes, written by 8 bytes, at 64; flags to the end of the sector. -/
def cfg : NvCfg := ⟨32, 8, 64, 32, 0xFF, false⟩

theorem cfg_wf : cfg.WF := ⟨by decide, by decide, by decide, by decide, by decide, .inl rfl⟩

/-- Magic and state UPDATING in the last sector, flags SWAPPING of sector 0. -/
def mem : Mem := fun x => if x = 90 then 0xF7 else if x = 91 then 0x70 else if 92 ≤ x ∧ x < 96 then magicByte (x - 92) else 0xFF

def flags : Nat → Byte := fun i => if i = 1 then 0x70 else if i = 2 then 0xF7 else 0xFF

theorem mem_reads : cfg.Reads mem flags := by
  refine ⟨by decide +kernel, ?_⟩
  have : ∀ i < 29, 1 ≤ i → cfg.get mem i = flags i := by decide +kernel
  intro i h1 h2
  exact this i (by simp only [cfg] at h2; omega) h1

/-- A history: the flag of sector 1 is set, power is lost while the state is set, the state is read, the flag of sector 2 is set. -/
example {r : Option Mem} (h : cfg.Run mem [(.set 2 0x77, false), (.set 1 0x30, true), (.read false, false), (.set 3 0xF7, false)] r) :
    ∃ m', r = some m' ∧ cfg.get m' 2 = 0x77 ∧ cfg.get m' 3 = 0xF7 ∧ (cfg.get m' 1 = 0x70 ∨ cfg.get m' 1 = 0x30) := by
  obtain ⟨m', F', h1, h2, h3⟩ := nvm_history_partial cfg_wf h mem_reads
  refine ⟨m', h1, ?_⟩
  rw [h2.2 1 (by decide) (by decide), h2.2 2 (by decide) (by decide), h2.2 3 (by decide) (by decide)]
  cases h3 with
  | cons s1 t1 => cases t1 with
    | cons s2 t2 => cases t2 with
      | cons s3 t3 => cases t3 with
        | cons s4 t4 =>
          cases t4
          cases s4
          cases s3
          cases s1
          rcases s2 with s2 | s2 <;> cases s2
          · exact ⟨rfl, rfl, .inl rfl⟩
          · exact ⟨rfl, rfl, .inr rfl⟩

/-- Such histories exist. -/
example : ∃ m', cfg.exec (cfg.ops mem (.set 2 0x77)) mem = some m' ∧ cfg.get m' 2 = 0x77 := by
  obtain ⟨m', F', h1, h2, h3⟩ := nvm_complete cfg_wf mem_reads (.set 2 0x77) (by intro i v h; cases h; decide)
  refine ⟨m', h1, ?_⟩
  rw [h2.2 2 (by decide) (by decide), h3]
  rfl

/-- No magic: image data at the start of the last sector, the other is erased. -/
def raw : Mem := fun x => if x < 70 ∧ 64 ≤ x then 0x11 else 0xFF

theorem raw_none : ∀ b, ¬ cfg.magic raw b := by decide +kernel

example : ∃ m', cfg.exec (cfg.magicOps raw) raw = some m' ∧ cfg.Reads m' (fun j => raw (96 - (4 + j))) :=
  (nvm_magic_partial cfg_wf raw_none (.inl (by decide +kernel))).1

/-- Flash after a power loss in the write of the magic. -/
def rawCut : Mem := fun x => if x < 70 ∧ 64 ≤ x then 0x11 else if x < 38 ∧ 32 ≤ x then 0x11 else 0xFF

end NvDemo

/-- Power loss in the write of the magic makes the next attempt a write to a unit that is not erased. -/
theorem nvm_magic_witness : NvDemo.cfg.Crash (NvDemo.cfg.magicOps NvDemo.raw) NvDemo.raw NvDemo.rawCut ∧
    NvDemo.cfg.exec (NvDemo.cfg.magicOps NvDemo.rawCut) NvDemo.rawCut = none := by
  refine ⟨?_, nvm_magic_rewrite NvDemo.cfg_wf (by decide +kernel) (by decide +kernel) (i := 0) (by decide) (by decide +kernel)⟩
  have hs : NvDemo.cfg.select NvDemo.raw = false := select_none NvDemo.raw_none
  have he : NvDemo.cfg.selOps false NvDemo.raw = [] := by
    unfold selOps
    rw [if_neg (by decide), hs]
    exact if_neg (by decide +kernel)
  unfold magicOps writes
  rw [he, hs, List.nil_append, List.range_eq_range']
  refine crash_prefix (rest := (List.range' 1 3).map (fun k => NvOp.write true k (NvDemo.cfg.magicCache NvDemo.raw)) ++ [.erase false])
    [.write true 0 (NvDemo.cfg.magicCache NvDemo.raw)] ?_
  refine (if_pos (by decide +kernel)).trans ?_
  refine congrArg some (funext fun x => ?_)
  show (if 32 + 0 * 8 ≤ x ∧ x < 32 + 0 * 8 + 8 then NvDemo.cfg.magicCache NvDemo.raw (x - 32) else NvDemo.raw x) = NvDemo.rawCut x
  by_cases hx : 32 ≤ x ∧ x < 40
  · rw [if_pos (by omega)]
    have : ∀ y < 8, NvDemo.cfg.magicCache NvDemo.raw y = NvDemo.rawCut (32 + y) := by decide +kernel
    rw [this _ (by omega), Nat.add_sub_cancel' hx.1]
  · rw [if_neg (by omega)]
    unfold NvDemo.raw NvDemo.rawCut
    split
    · rfl
    · rw [if_neg (by omega)]

namespace NvDemo

/-- Encrypted updates: the flags end 8 bytes before the end of the sector, the key follows. -/
def kcfg : NvCfg := ⟨32, 8, 64, 24, 0xFF, false⟩

theorem kcfg_wf : kcfg.WF := ⟨by decide, by decide, by decide, by decide, by decide, .inl rfl⟩

/-- Magic, state NEW, the key. -/
def kmem : Mem := fun x => if 84 ≤ x ∧ x < 88 then magicByte (x - 84) else if 88 ≤ x ∧ x < 96 then 0xA5 else 0xFF

end NvDemo

/-- **Finding (C11).** With `EXT_ENCRYPTED` the key is stored behind the magic. The copy is written upwards in units
(`/repo/src/libwolfboot.c:307-313`), so after a power loss the new sector can have the magic but not the key; it is selected, and the sector with the key
is erased by the next access: the flags are as specified but the key is lost. -/
theorem nvm_key_lost : ∃ m' m'', NvDemo.kcfg.Crash (NvDemo.kcfg.ops NvDemo.kmem (.set 1 0x70)) NvDemo.kmem m' ∧
    NvDemo.kcfg.exec (NvDemo.kcfg.ops m' (.read false)) m' = some m'' ∧ (∀ i < 8, NvDemo.kmem (88 + i) = 0xA5) ∧
    ∀ x, 32 ≤ x → x < 96 → m'' x ≠ 0xA5 := by
  have hs : NvDemo.kcfg.select NvDemo.kmem = false := by decide +kernel
  have he : NvDemo.kcfg.selOps false NvDemo.kmem = [] := by
    unfold selOps
    rw [if_neg (by decide), hs]
    exact if_neg (by decide +kernel)
  have hops : NvDemo.kcfg.ops NvDemo.kmem (.set 1 0x70) =
      (.erase true :: (List.range 3).map (fun k => NvOp.write true k (NvDemo.kcfg.cache NvDemo.kmem 1 0x70))) ++
        [.write true 3 (NvDemo.kcfg.cache NvDemo.kmem 1 0x70), .erase false] := by
    show NvDemo.kcfg.setOps _ _ _ = _
    unfold setOps writes
    rw [he, hs]
    rfl
  have hex : ∃ m', NvDemo.kcfg.exec (.erase true :: (List.range 3).map (fun k => NvOp.write true k (NvDemo.kcfg.cache NvDemo.kmem 1 0x70))) NvDemo.kmem
      = some m' ∧ NvDemo.kcfg.Part true (NvDemo.kcfg.cache NvDemo.kmem 1 0x70) m' 3 ∧ ∀ x, ¬ NvDemo.kcfg.inSec true x → m' x = NvDemo.kmem x := by
    obtain ⟨m', h1, h2, h3⟩ := exec_writes NvDemo.kcfg_wf [] 3 0 _ (by decide) (part_erased true (NvDemo.kcfg.cache NvDemo.kmem 1 0x70) NvDemo.kmem)
    rw [List.append_nil] at h1
    refine ⟨m', ?_, h2, fun x hx => by rw [h3 x hx, erase_out hx]⟩
    rw [List.range_eq_range']
    exact h1
  obtain ⟨m', h1, h2, h3⟩ := hex
  have e1 : ∀ i < 32, m' (32 + i) = if i < 24 then NvDemo.kcfg.cache NvDemo.kmem 1 0x70 i else 0xFF := fun i hi => h2 i hi
  have e0 : ∀ i < 32, m' (64 + i) = NvDemo.kmem (64 + i) := fun i hi => h3 _ (by simp only [inSec, base, NvDemo.kcfg]; simp)
  have c1 : ∀ i < 24, NvDemo.kcfg.cache NvDemo.kmem 1 0x70 i = if i = 19 then 0x70 else if 20 ≤ i then magicByte (i - 20) else 0xFF := by decide +kernel
  have sel : NvDemo.kcfg.select m' = true := by
    have g0 : NvDemo.kcfg.magic m' false := by
      show le32 m' 84 = _
      unfold le32
      rw [show m' 84 = 0x42 from (e0 20 (by decide)).trans (by decide +kernel), show m' (84 + 1) = 0x4F from (e0 21 (by decide)).trans (by decide +kernel),
        show m' (84 + 2) = 0x4F from (e0 22 (by decide)).trans (by decide +kernel), show m' (84 + 3) = 0x54 from (e0 23 (by decide)).trans (by decide +kernel)]
      decide
    have g1 : NvDemo.kcfg.magic m' true := by
      show le32 m' 52 = _
      unfold le32
      rw [show m' 52 = 0x42 from (e1 20 (by decide)).trans (by decide +kernel), show m' (52 + 1) = 0x4F from (e1 21 (by decide)).trans (by decide +kernel),
        show m' (52 + 2) = 0x4F from (e1 22 (by decide)).trans (by decide +kernel), show m' (52 + 3) = 0x54 from (e1 23 (by decide)).trans (by decide +kernel)]
      decide
    unfold select
    rw [if_neg (fun h => h.2 g1), if_neg (fun h => h.1 g0), if_neg (fun h => h.1 g0)]
    show NvDemo.kcfg.scan m' (27 + 1) 4 = true
    have b4 : NvDemo.kcfg.byteAt m' false 4 = 0x42 := (e0 20 (by decide)).trans (by decide +kernel)
    have b4' : NvDemo.kcfg.byteAt m' true 4 = 0x42 := (e1 20 (by decide)).trans (by decide +kernel)
    have b5 : NvDemo.kcfg.byteAt m' false 5 = 0xFF := (e0 19 (by decide)).trans (by decide +kernel)
    have b5' : NvDemo.kcfg.byteAt m' true 5 = 0x70 := (e1 19 (by decide)).trans (by decide +kernel)
    unfold scan
    rw [b4, b4', if_neg (by decide), if_neg (by decide), if_neg (by decide)]
    show NvDemo.kcfg.scan m' (26 + 1) 5 = true
    unfold scan
    rw [b5, b5', if_pos (by decide)]
  have hsel : NvDemo.kcfg.selOps false m' = [.erase false] := by
    unfold selOps
    rw [if_neg (by decide), sel]
    refine if_pos ?_
    show le32 m' 92 ≠ _
    unfold le32
    rw [show m' 92 = 0xA5 from (e0 28 (by decide)).trans (by decide +kernel), show m' (92 + 1) = 0xA5 from (e0 29 (by decide)).trans (by decide +kernel),
      show m' (92 + 2) = 0xA5 from (e0 30 (by decide)).trans (by decide +kernel), show m' (92 + 3) = 0xA5 from (e0 31 (by decide)).trans (by decide +kernel)]
    decide
  refine ⟨m', NvDemo.kcfg.apply m' (.erase false), ?_, ?_, by decide +kernel, ?_⟩
  · rw [hops]
    exact crash_prefix _ h1
  · show NvDemo.kcfg.exec (NvDemo.kcfg.selOps false m') m' = _
    rw [hsel]
    rfl
  · intro x hx hx'
    by_cases hlt : x < 64
    · rw [erase_out (by simp only [inSec, base, NvDemo.kcfg]; simp; omega), show x = 32 + (x - 32) by omega, e1 _ (by omega)]
      split
      · rename_i h24
        rw [c1 _ h24]
        have : ∀ i < 24, (if i = 19 then 0x70 else if 20 ≤ i then magicByte (i - 20) else (0xFF : Byte)) ≠ 0xA5 := by decide +kernel
        exact this _ h24
      · decide
    · rw [erase_in (by simp only [inSec, base, NvDemo.kcfg]; simp; omega)]
      decide

/-- Erase interrupted such that only some bits of the sector are erased. -/
def NvCfg.TornBits (c : NvCfg) (b : Bool) (m m' : Mem) : Prop :=
  ∀ x, if c.base b ≤ x ∧ x < c.base b + c.ss then m x &&& m' x = m x else m' x = m x

namespace NvDemo

/-- Both copies, after the write of the new one and before the erase of the old one: the flag of sector 2 is being set. -/
def both : Mem := fun x =>
  if x = 89 then 0xF7 else if x = 57 then 0xF7 else
  if x = 90 ∨ x = 58 then 0x00 else if x = 91 ∨ x = 59 then 0x70 else
  if 92 ≤ x ∧ x < 96 then magicByte (x - 92) else if 60 ≤ x ∧ x < 64 then magicByte (x - 60) else 0xFF

/-- Some bits of the state are erased. -/
def bothTorn : Mem := fun x => if x = 59 then 0x7F else both x

end NvDemo

/-- **Finding (C11).** The theorem assumes that an interrupted erase leaves no magic. When single bits are erased first, the sector that was being erased can be
selected, with flags that were never there: here the state is neither that of the one copy nor that of the other. -/
theorem nvm_torn_erase : NvDemo.cfg.TornBits true NvDemo.both NvDemo.bothTorn ∧ NvDemo.cfg.select NvDemo.bothTorn = true ∧
    NvDemo.cfg.get NvDemo.bothTorn 1 = 0x7F ∧ (∀ b, NvDemo.cfg.magic NvDemo.both b) ∧
    NvDemo.both (96 - 5) = 0x70 ∧ NvDemo.both (64 - 5) = 0x70 := by
  refine ⟨?_, by decide +kernel, by decide +kernel, by decide +kernel, by decide +kernel, by decide +kernel⟩
  intro x
  by_cases h : x = 59
  · subst h
    decide +kernel
  · have : NvDemo.bothTorn x = NvDemo.both x := if_neg h
    rw [this]
    split
    · exact BitVec.and_self
    · rfl

end Verif
