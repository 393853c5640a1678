import Verif.LifecycleLemmas
import Verif.Demo

/-!
# Partition trailer: C09, C41

The observable interface of the trailer are `wolfBoot_get_partition_state` and
`wolfBoot_get_update_sector_flag` (`getState`, `getFlag`): every theorem speaks about these.
-/

namespace Verif
open Demo

/-- Uninterrupted run with the flash unlocked. -/
def run (f : Flash) : World := ⟨f, false, none, fun _ => 0#8⟩

theorem Triple.run_ok {α : Type} {m : M α} {f0 : Flash} {l' : Bool} {Q : α → Flash → Prop}
    {C : Flash → Prop}
    (h : Triple (fun _ => True) false (fun f => f = f0) m l' Q C) :
    ∃ a w', m (run f0) = .ok a w' ∧ w'.locked = l' ∧ Q a w'.fl := by
  have h := h (run f0) trivial rfl rfl
  cases hm : m (run f0) with
  | ok a w' => rw [hm] at h; exact ⟨a, w', rfl, h.1, h.2.2.2⟩
  | crash f => rw [hm] at h; exact absurd rfl h.1
  | panic f => rw [hm] at h; exact h.elim
  | stuck f => rw [hm] at h; exact h.elim
  | fault f => rw [hm] at h; exact h.elim

/-- The magic word of a partition is present or its bytes are erased. -/
def MagicOrErased (c : Cfg) (f : Flash) (p : Part) : Prop :=
  getState c f p ≠ none ∨ ∀ x, c.part - 4 ≤ x → x < c.part → f p x = 0xFF#8

theorem MagicOrErased.magicP {c : Cfg} (w : c.WF) {f : Flash} {p : Part}
    (h : MagicOrErased c f p) : MagicP c f p := by
  have hss := w.ss_pos
  have hpe := w.part_eq
  have htb0 := trailer_bounds w (k := 0) (by omega)
  rcases h with h | h
  · refine hasMagic.magicP ?_
    apply Classical.byContradiction
    intro hn
    exact h (by unfold getState; rw [if_neg hn])
  · intro i hi
    rw [h _ (by omega) (by omega)]
    exact BitVec.allOnes_and

theorem getState_same {c : Cfg} (w : c.WF) {f g : Flash} {p : Part}
    (h : ∀ x, trailerAt c 1 ≤ x → x < c.part → g p x = f p x) : getState c g p = getState c f p := by
  have hss := w.ss_pos
  have h0 := trailer_bounds w (k := 0) (by omega)
  have h1 := trailer_bounds w (k := 1) (by omega)
  have : hasMagic c g p ↔ hasMagic c f p := by
    unfold hasMagic
    rw [le32_congr (x := f p) (fun o a b => h o (by omega) (by omega))]
  unfold getState
  rw [h _ (by omega) (by omega)]
  by_cases h : hasMagic c f p
  · rw [if_pos h, if_pos (this.mpr h)]
  · rw [if_neg h, if_neg (fun h' => h (this.mp h'))]

/-- **C09 (state).** Writing a state that needs no erase makes it readable, and changes nothing
else: not the other partition's state, no sector flag of a trailer that was already valid, and no
byte outside magic and state. Partial: on flash, a state is only writable if it clears bits
(`hst`; C10 shows that this holds for every write of the bootloader). -/
theorem state_cell_partial {c : Cfg} (w : c.WF) {p : Part} (hp : p ≠ .swap) (f : Flash) (st : Byte)
    (hm : MagicOrErased c f p) (hst : f p (c.part - 5) &&& st = st) :
    ∃ w', setState c p st (run f) = .ok () w' ∧
      getState c w'.fl p = some st ∧
      (∀ q, q ≠ p → getState c w'.fl q = getState c f q) ∧
      (getState c f .update ≠ none ∨ p ≠ .update → ∀ k, k < c.n → getFlag c w'.fl k = getFlag c f k) ∧
      ∀ q x, q ≠ p ∨ x < c.part - 5 ∨ c.part ≤ x → w'.fl q x = f q x := by
  have hss := w.ss_pos
  have hff := w.flags_fit
  have hn := w.n512
  have hpe := w.part_eq
  have h0 := trailer_bounds w (k := 0) (by omega)
  have h1 := trailer_bounds w (k := 1) (by omega)
  obtain ⟨_, w', hr, _, hM, hS, hsame⟩ := (setState_spec (T := fun _ => True) w hp f st
    (hm.magicP w) hst).run_ok
  have hout : ∀ q x, q ≠ p ∨ x < c.part - 5 ∨ c.part ≤ x → w'.fl q x = f q x := by
    intro q x h
    refine hsame q x ?_
    rintro ⟨h2, h3, h4⟩
    rcases h with h | h | h
    · exact h h2
    · have : trailerAt c 1 = c.part - 5 := rfl
      omega
    · omega
  refine ⟨w', hr, ?_, ?_, ?_, hout⟩
  · unfold getState; rw [if_pos hM, hS]
  · intro q hq
    exact getState_same w (fun x _ _ => hout q x (Or.inl hq))
  · intro hmu k hk
    have : flagPos k ≤ c.n / 2 := by rw [flagPos_lt (by omega)]; omega
    have hb := trailer_bounds w (k := 2 + flagPos k) (by omega)
    unfold getFlag
    rw [rawFlag_congr (f := w'.fl) (g := f) (hout _ _ (Or.inr (Or.inl (by
      have : trailerAt c 1 = c.part - 5 := rfl
      omega))))]
    by_cases hpu : p = .update
    · have hmu : hasMagic c f .update := by
        rcases hmu with hmu | hmu
        · apply Classical.byContradiction
          intro h
          exact hmu (by unfold getState; rw [if_neg h])
        · exact absurd hpu hmu
      rw [if_pos hmu, if_pos (by rw [← hpu]; exact hM)]
    · have : hasMagic c w'.fl .update ↔ hasMagic c f .update := by
        unfold hasMagic
        rw [le32_congr (x := f .update) (fun o _ _ => hout .update o (Or.inl (fun h => hpu h.symm)))]
      by_cases h : hasMagic c f .update
      · rw [if_pos h, if_pos (this.mpr h)]
      · rw [if_neg h, if_neg (fun h' => h (this.mp h'))]

/-- **C09 (flags).** Writing a sector flag that needs no erase makes it readable, and changes no
other sector's flag (of a valid trailer), no partition state, and no byte outside the trailer sector.
Partial: partitions of at most 512 sectors (`Cfg.WF`; see `flag_cells_alias`), and only flags that
clear bits (`hst`; C10). -/
theorem flag_cell_partial {c : Cfg} (w : c.WF) (f : Flash) (k : Nat) (hk : k < c.n) (fl old : Byte)
    (hm : getState c f .update ≠ none) (ho : getFlag c f k = some old) (hfl : fl &&& 0x0F#8 = fl)
    (hst : old &&& fl = fl) :
    ∃ w', setFlag c k fl (run f) = .ok () w' ∧
      getFlag c w'.fl k = some fl ∧
      (∀ j, j < c.n → j ≠ k → getFlag c w'.fl j = getFlag c f j) ∧
      (∀ q, getState c w'.fl q = getState c f q) ∧
      ∀ q x, q ≠ .update ∨ x < c.part - c.ss ∨ c.part ≤ x → w'.fl q x = f q x := by
  have hmu : hasMagic c f .update := by
    apply Classical.byContradiction
    intro h
    exact hm (by unfold getState; rw [if_neg h])
  have hro : rawFlag c f k = old := by
    unfold getFlag at ho; rw [if_pos hmu] at ho; exact Option.some.inj ho
  obtain ⟨_, w', hr, _, hsame, hM, hS, hK, hJ⟩ := (setFlag_spec (T := fun _ => True) w f k hk fl hfl
    hmu.magicP (by rw [hro]; exact hst)).run_ok
  have hpe := w.part_eq
  refine ⟨w', hr, ?_, ?_, ?_, ?_⟩
  · unfold getFlag; rw [if_pos hM, hK]
  · intro j hj hjk
    unfold getFlag; rw [if_pos hM, if_pos hmu, hJ j hj hjk]
  · intro q
    by_cases hq : q = .update
    · subst hq
      unfold getState; rw [if_pos hM, if_pos hmu, hS]
    · exact getState_same w (fun x _ _ => hsame q x (fun h => hq h.1))
  · intro q x h
    refine hsame q x ?_
    rintro ⟨h2, h3, h4⟩
    rcases h with h | h | h
    · exact h h2
    · omega
    · omega

/-- Initial flag write on an erased trailer: the other flags read as NEW afterwards. -/
theorem flag_cell_erased_partial {c : Cfg} (w : c.WF) (f : Flash) (k : Nat) (hk : k < c.n) (fl : Byte)
    (he : ∀ x, c.part - c.ss ≤ x → x < c.part → f .update x = 0xFF#8) (hfl : fl &&& 0x0F#8 = fl) :
    ∃ w', setFlag c k fl (run f) = .ok () w' ∧
      (∀ j, j < c.n → getFlag c w'.fl j = some (if j = k then fl else FL_NEW)) ∧
      getState c w'.fl .update = some ST_NEW ∧ getState c w'.fl .boot = getState c f .boot := by
  have hss := w.ss_pos
  have hff := w.flags_fit
  have hn := w.n512
  have hpe := w.part_eq
  have h0 := trailer_bounds w (k := 0) (by omega)
  have h1 := trailer_bounds w (k := 1) (by omega)
  have hraw : ∀ j, j < c.n → rawFlag c f j = FL_NEW := by
    intro j hj
    have : flagPos j ≤ c.n / 2 := by rw [flagPos_lt (by omega)]; omega
    have hb := trailer_bounds w (k := 2 + flagPos j) (by omega)
    unfold rawFlag
    rw [he _ (by omega) (by omega)]
    exact nib_ff j
  have hm : MagicOrErased c f .update := Or.inr (fun x h2 h3 => he x (by omega) h3)
  obtain ⟨_, w', hr, _, hsame, hM, hS, hK, hJ⟩ := (setFlag_spec (T := fun _ => True) w f k hk fl hfl
    (hm.magicP w) (by rw [hraw k hk, BitVec.and_comm]; exact hfl)).run_ok
  refine ⟨w', hr, ?_, ?_, getState_same w (fun x _ _ => hsame .boot x (fun h => by simp at h))⟩
  · intro j hj
    unfold getFlag
    rw [if_pos hM]
    by_cases hjk : j = k
    · rw [if_pos hjk, hjk, hK]
    · rw [if_neg hjk, hJ j hj hjk, hraw j hj]
  · unfold getState
    rw [if_pos hM, hS, he _ (by omega) (by omega)]; rfl

/-- Partition with 514 sectors (satisfies all other conditions of `Cfg.WF`). -/
def bigCfg : Cfg := { ss := 1024, n := 514, h := 16, fb := 8 }

/-- **Finding.** `uint8_t pos = sector >> 1` (`/repo/src/libwolfboot.c:618,674`) wraps at sector 512:
setting the flag of sector 512 changes the flag of sector 1 (sector 512's position is 0, and, since
`512 ≠ pos << 1`, the high nibble is used). -/
theorem flag_cells_alias :
    okAnd (setFlag bigCfg 512 FL_SWAPPING (run (fun _ _ => 0xFF#8)))
      (fun f => getFlag bigCfg f 1 == some FL_SWAPPING) = true := by decide +kernel

/-- Instances of C09: states and flags of an update in progress. -/
example : getFlag cfg pending 1 = some FL_NEW ∧ getState cfg pending .update ≠ none := by
  decide

example : ∃ w', setFlag cfg 1 FL_SWAPPING (run pending) = .ok () w' ∧
      getFlag cfg w'.fl 1 = some FL_SWAPPING ∧
      (∀ j, j < cfg.n → j ≠ 1 → getFlag cfg w'.fl j = getFlag cfg pending j) ∧
      (∀ q, getState cfg w'.fl q = getState cfg pending q) ∧
      ∀ q x, q ≠ .update ∨ x < cfg.part - cfg.ss ∨ cfg.part ≤ x → w'.fl q x = pending q x :=
  flag_cell_partial wf _ 1 (by decide) FL_SWAPPING FL_NEW (by decide) (by decide) (by decide) (by decide)

example : ∃ w', setFlag cfg 2 FL_BACKUP (run (flash old none new none)) = .ok () w' ∧
      (∀ j, j < cfg.n → getFlag cfg w'.fl j = some (if j = 2 then FL_BACKUP else FL_NEW)) ∧
      getState cfg w'.fl .update = some ST_NEW ∧
      getState cfg w'.fl .boot = getState cfg (flash old none new none) .boot :=
  flag_cell_erased_partial wf _ 2 (by decide) FL_BACKUP (erased_of (by decide)) (by decide)

example : ∃ w', setState cfg .update ST_FINAL (run pending) = .ok () w' ∧
      getState cfg w'.fl .update = some ST_FINAL ∧
      (∀ q, q ≠ .update → getState cfg w'.fl q = getState cfg pending q) ∧
      (getState cfg pending .update ≠ none ∨ Part.update ≠ .update → ∀ k, k < cfg.n →
        getFlag cfg w'.fl k = getFlag cfg pending k) ∧
      ∀ q x, q ≠ .update ∨ x < cfg.part - 5 ∨ cfg.part ≤ x → w'.fl q x = pending q x :=
  state_cell_partial wf (by simp) _ ST_FINAL (Or.inl (by decide)) (by decide)

/-! ## C41 -/

/-- **C41 (trigger), page-erasing flash.** For every prior content of the flash,
`wolfBoot_update_trigger` leaves UPDATE in state UPDATING with all sector flags NEW, and changes
nothing outside the trailer sector of UPDATE. -/
theorem trigger_effect {c : Cfg} (w : c.WF) (f : Flash) :
    ∃ w', updateTrigger c true (run f) = .ok () w' ∧ w'.locked = true ∧
      getState c w'.fl .update = some ST_UPDATING ∧
      (∀ k, k < c.n → getFlag c w'.fl k = some FL_NEW) ∧
      ∀ q x, q ≠ .update ∨ x < c.part - c.ss ∨ c.part ≤ x → w'.fl q x = f q x := by
  obtain ⟨_, w', hr, hl, hsame, hM, hS, hK⟩ := (trigger_spec (T := fun _ => True) (l := false) w f true
    (Or.inl rfl)).run_ok
  have hpe := w.part_eq
  refine ⟨w', hr, hl, ?_, ?_, ?_⟩
  · unfold getState; rw [if_pos hM, hS]
  · intro k hk; unfold getFlag; rw [if_pos hM, hK k hk]
  · intro q x h
    refine hsame q x ?_
    rintro ⟨h2, h3, h4⟩
    rcases h with h | h | h
    · exact h h2
    · omega
    · omega

/-- **C41 (trigger), byte-exact erase.** `wolfBoot_update_trigger` erases only
`WOLFBOOT_SECTOR_SIZE - 5` bytes (`SECTOR_FLAGS_SIZE`), i.e. neither state nor magic. If the HAL
erases exactly these, the effect is guaranteed only if the state byte can be programmed to UPDATING.
Partial: see `trigger_ineffective`. -/
theorem trigger_effect_exact_partial {c : Cfg} (w : c.WF) (f : Flash)
    (hm : MagicOrErased c f .update) (hst : f .update (c.part - 5) &&& ST_UPDATING = ST_UPDATING) :
    ∃ w', updateTrigger c false (run f) = .ok () w' ∧ w'.locked = true ∧
      getState c w'.fl .update = some ST_UPDATING ∧
      (∀ k, k < c.n → getFlag c w'.fl k = some FL_NEW) ∧
      ∀ q x, q ≠ .update ∨ x < c.part - c.ss ∨ c.part ≤ x → w'.fl q x = f q x := by
  obtain ⟨_, w', hr, hl, hsame, hM, hS, hK⟩ := (trigger_spec (T := fun _ => True) (l := false) w f false
    (Or.inr ⟨hm.magicP w, hst⟩)).run_ok
  have hpe := w.part_eq
  refine ⟨w', hr, hl, ?_, ?_, ?_⟩
  · unfold getState; rw [if_pos hM, hS]
  · intro k hk; unfold getFlag; rw [if_pos hM, hK k hk]
  · intro q x h
    refine hsame q x ?_
    rintro ⟨h2, h3, h4⟩
    rcases h with h | h | h
    · exact h h2
    · omega
    · omega

/-- **Finding.** With a byte-exact erase and the state byte of UPDATE at SUCCESS, the request is
silently lost: the state is still SUCCESS. -/
theorem trigger_ineffective :
    okAnd (updateTrigger cfg false (run (flash old none new (some ST_SUCCESS))))
      (fun f => getState cfg f .update == some ST_SUCCESS) = true := by decide +kernel

/-- **C41 (confirm).** For every prior content of the BOOT trailer whose magic is present or erased,
`wolfBoot_success` leaves BOOT in state SUCCESS and changes nothing but magic and state of BOOT.
Partial: if the magic bytes are neither, see `success_ineffective`. -/
theorem success_effect_partial {c : Cfg} (w : c.WF) (f : Flash) (hm : MagicOrErased c f .boot) :
    ∃ w', success c (run f) = .ok () w' ∧ w'.locked = true ∧
      getState c w'.fl .boot = some ST_SUCCESS ∧
      (∀ k, k < c.n → getFlag c w'.fl k = getFlag c f k) ∧
      ∀ q x, q ≠ .boot ∨ x < c.part - 5 ∨ c.part ≤ x → w'.fl q x = f q x := by
  obtain ⟨_, w', hr, hl, hsame, hM, hS⟩ := (success_spec (T := fun _ => True) (l := false) w f
    (hm.magicP w)).run_ok
  refine ⟨w', hr, hl, ?_, ?_, ?_⟩
  · unfold getState; rw [if_pos hM, hS]
  · intro k hk
    have h : ∀ x, w'.fl .update x = f .update x := fun x => hsame .update x (fun h => by simp at h)
    have hmm : hasMagic c w'.fl .update ↔ hasMagic c f .update := by
      unfold hasMagic
      rw [funext h]
    unfold getFlag rawFlag
    rw [h]
    by_cases h : hasMagic c f .update
    · rw [if_pos h, if_pos (hmm.mpr h)]
    · rw [if_neg h, if_neg (fun h' => h (hmm.mp h'))]
  · intro q x h
    refine hsame q x ?_
    rintro ⟨h2, h3, h4⟩
    have : trailerAt c 1 = c.part - 5 := rfl
    rcases h with h | h | h
    · exact h h2
    · omega
    · omega

/-- **Finding.** If the application image reaches into the BOOT trailer (or it is corrupted),
`wolfBoot_success` cannot write the magic and has no effect; the application is not told. -/
theorem success_ineffective :
    okAnd (success cfg (run (fun _ _ => 0#8))) (fun f => getState cfg f .boot == none) = true := by
  decide +kernel

/-- Instances of C41 with stale trailer contents. -/
example : ∃ w', updateTrigger cfg true (run (fun _ _ => 0#8)) = .ok () w' ∧ w'.locked = true ∧
      getState cfg w'.fl .update = some ST_UPDATING ∧
      (∀ k, k < cfg.n → getFlag cfg w'.fl k = some FL_NEW) ∧
      ∀ q x, q ≠ .update ∨ x < cfg.part - cfg.ss ∨ cfg.part ≤ x → w'.fl q x = 0#8 :=
  trigger_effect wf _

example : ∃ w', updateTrigger cfg false (run pending) = .ok () w' ∧ w'.locked = true ∧
      getState cfg w'.fl .update = some ST_UPDATING ∧
      (∀ k, k < cfg.n → getFlag cfg w'.fl k = some FL_NEW) ∧
      ∀ q x, q ≠ .update ∨ x < cfg.part - cfg.ss ∨ cfg.part ≤ x → w'.fl q x = pending q x :=
  trigger_effect_exact_partial wf _ (Or.inl (by decide)) (by decide)

example : ∃ w', success cfg (run (flash old (some ST_TESTING) new none)) = .ok () w' ∧
      w'.locked = true ∧ getState cfg w'.fl .boot = some ST_SUCCESS ∧
      (∀ k, k < cfg.n → getFlag cfg w'.fl k = getFlag cfg (flash old (some ST_TESTING) new none) k) ∧
      ∀ q x, q ≠ .boot ∨ x < cfg.part - 5 ∨ cfg.part ≤ x →
        w'.fl q x = flash old (some ST_TESTING) new none q x :=
  success_effect_partial wf _ (Or.inl (by decide))

end Verif
