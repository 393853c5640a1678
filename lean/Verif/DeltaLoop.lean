import Verif.DeltaBase

/-!
# Helper lemmas: power failures during a delta update

`X` is the base in BOOT, `Y` the result, `U` the delta image in UPDATE; `inv` is the direction.
-/

set_option linter.unusedSectionVars false
set_option linter.unusedVariables false

namespace Verif

theorem Triple.monoT {α : Type} {T T' : Mem → Prop} {l l' : Bool} {P : Flash → Prop} {m : M α}
    {Q : α → Flash → Prop} {C : Flash → Prop} (h : Triple T l P m l' Q C) (hT : ∀ t, T' t → T t) :
    Triple T' l P m l' Q C := fun w h1 h2 h3 => h w (hT _ h1) h2 h3

/-- Output of a patch: the target image, erased bytes behind the end of the patch. -/
def padded (P : List BSrc) (Y : Mem) : Mem := fun x => if x < P.length then Y x else 0xFF#8

/-- The delta image `U` has a well-formed patch for the direction `inv`, whose references are inside of
the partition. -/
structure HasPatch (c : Cfg) (U : Mem) (inv : Bool) (off size : Nat) (P : List BSrc) : Prop where
  info : deltaInfo c.h U inv = some (off, size)
  pos : 0 < size
  inside : off + size ≤ imgLen c U
  plan : plan (slice U off size) = some P
  read : ∀ x ∈ P, x ≠ .bad ∧ ∀ o, x = .at o → o < c.part

/-- Assumptions about the images and the patch. -/
structure DParm (c : Cfg) (d : DCfg) (X Y U : Mem) (inv : Bool) (off size : Nat) (P : List BSrc) : Prop where
  bk6 : 6 ≤ d.bk
  bkd : d.bk ∣ c.ss
  hX : ImgOK c X
  hY : ImgOK c Y
  hU : ImgOK c U
  patch : HasPatch c U inv off size P
  inPlace : InPlaceAt X Y (imgLen c X) (imgLen c Y) c.ss 0 P
  len : imgLen c Y ≤ P.length
  quiet : le32 (padded P Y) c.tmp ≠ MAGIC_TRAIL
  fb8 : inv = true → 8 ≤ c.fb

/-- Bytes left by a torn operation: not the magic word at `tmp`; in the inverse direction, not the magic
word of a header. -/
def TD (c : Cfg) (inv : Bool) (t : Mem) : Prop := TornOK c MAGIC_TRAIL t ∧ (inv = true → le32 t 0 ≠ MAGIC)

/-- Delta update in progress: the sectors in front of `k` are patched; `sw`: the next one is in SWAP. -/
structure DI (c : Cfg) (X Y U : Mem) (inv : Bool) (P : List BSrc) (k : Nat) (sw : Bool) (f : Flash) : Prop where
  upd : Agree (f .update) U 0 (imgLen c U)
  kle : k ≤ c.n - 1
  swk : sw = true → k < c.n - 1
  done : ∀ x, x < k * c.ss → f .boot x = padded P Y x
  rest : ∀ x, (if sw = true then k * c.ss + c.ss else k * c.ss) ≤ x → x < imgLen c X → f .boot x = X x
  fdone : ∀ j, j < k → rawFlag c f j ≠ FL_NEW ∧ rawFlag c f j ≠ FL_SWAPPING
  fcur : k < c.n - 1 → rawFlag c f k = if sw = true then FL_SWAPPING else FL_NEW
  fnew : ∀ j, k < j → j < c.n - 1 → rawFlag c f j = FL_NEW
  swap : sw = true → ∀ o, o < c.ss → f .swap o = padded P Y (k * c.ss + o)
  magicP : MagicP c f .update
  magic : inv = false ∨ 0 < k ∨ sw = true → hasMagic c f .update
  st : f .update (trailerAt c 1) = if inv = true then 0xFF#8 else ST_UPDATING
  test : inv = true → Testing c f
  hdr : k = 0 → sw = true → inv = true → fwSize c (f .boot) + c.h ≤ c.last
  ntB : le32 (f .boot) c.tmp ≠ MAGIC_TRAIL
  ntU : le32 (f .update) c.tmp ≠ MAGIC_TRAIL

def DIx (c : Cfg) (X Y U : Mem) (inv : Bool) (P : List BSrc) (f : Flash) : Prop :=
  ∃ k sw, DI c X Y U inv P k sw f

/-! ## Decoding a sector -/

section
variable {c : Cfg} (w : c.WF) {d : DCfg} {X Y U : Mem} {inv : Bool} {off size : Nat} {P : List BSrc}
include w

omit w in
theorem evalB_ne {f : Flash} {x : BSrc} (h : x ≠ .bad ∧ ∀ o, x = .at o → o < c.part) :
    evalB (bootSrc c f) x ≠ none := by
  cases x with
  | bad => exact absurd rfl h.1
  | lit v => simp [evalB]
  | «at» o =>
    simp only [evalB, bootSrc]
    rw [if_pos (h.2 o rfl)]
    simp

omit w in
theorem slice_upd {f : Flash} (hin : off + size ≤ imgLen c U) (h : Agree (f .update) U 0 (imgLen c U)) :
    slice (f .update) off size = slice U off size :=
  slice_congr (h.mono (by omega) hin)

omit w in
/-- Decoding a sector without using the bytes. -/
theorem sector_consume {f : Flash} {patch : List Byte} {s : Nat} {ctx : PCtx} (h6 : 6 ≤ d.bk) (hd : d.bk ∣ c.ss)
    (hr : ∀ x ∈ P, x ≠ .bad ∧ ∀ o, x = .at o → o < c.part) (hrem : Rem patch ctx (P.drop (s * c.ss))) :
    ∃ ctx' out, sectorGo (bootSrc c f) patch d.bk c.ss (c.ss + 2) ctx [] = .ok ctx' out ∧
      Rem patch ctx' (P.drop ((s + 1) * c.ss)) ∧ out.length ≤ c.ss := by
  obtain ⟨ctx', out, h1, h2, h3⟩ := sector_spec (src := bootSrc c f) h6 hd hrem (fun x hx =>
    evalB_ne (hr x (List.mem_of_mem_drop (List.mem_of_mem_take hx))))
  have hlen : out.length = min c.ss (P.length - s * c.ss) := by
    have := congrArg List.length h2
    simpa using this
  refine ⟨ctx', out, h1, ?_, by omega⟩
  rw [List.drop_drop] at h3
  rw [Nat.succ_mul]
  exact h3

/-- Decoding the next sector yields its bytes. -/
theorem sector_bytes {f : Flash} {patch : List Byte} {k : Nat} {ctx : PCtx} (hp : DParm c d X Y U inv off size P)
    (hI : DI c X Y U inv P k false f) (hk : k < c.n - 1)
    (hrem : Rem patch ctx (P.drop (k * c.ss))) :
    ∃ ctx' out, sectorGo (bootSrc c f) patch d.bk c.ss (c.ss + 2) ctx [] = .ok ctx' out ∧
      Rem patch ctx' (P.drop ((k + 1) * c.ss)) ∧ out.length ≤ c.ss ∧
      ∀ o, o < c.ss → out.getD o 0xFF#8 = padded P Y (k * c.ss + o) := by
  have hss := w.ss_pos
  have hpe := w.part_eq
  have hl := Cfg.WF.sec_le_last hk
  have hfx := hp.hX.fits
  have hfy := hp.hY.fits
  have hval : ∀ i x, (P.drop (k * c.ss))[i]? = some x → i < c.ss →
      evalB (bootSrc c f) x = some (Y (k * c.ss + i)) := by
    intro i x hx hi
    rw [List.getElem?_drop] at hx
    have h := hp.inPlace _ _ hx
    rw [Nat.zero_add] at h
    cases x with
    | bad => exact absurd h id
    | lit v => exact congrArg some h
    | «at» o =>
      have hsec : (k * c.ss + i) / c.ss * c.ss = k * c.ss := by
        rw [Nat.mul_comm k c.ss, Nat.mul_add_div (by omega), Nat.div_eq_of_lt hi, Nat.add_zero, Nat.mul_comm]
      simp only [InPlace, hsec] at h
      simp only [evalB, bootSrc]
      rcases h with ⟨i1, i2, i3⟩ | ⟨i1, i2, i3⟩
      · rw [if_pos (by omega), hI.rest o (by simp; omega) i2, i3]
      · have := hp.len
        rw [if_pos (by omega), hI.done o i1]
        unfold padded
        rw [if_pos (by omega), i3]
  obtain ⟨ctx', out, e1, e2, e3⟩ := sector_spec (src := bootSrc c f) hp.bk6 hp.bkd hrem (by
    intro x hx
    obtain ⟨i, hi⟩ := List.getElem?_of_mem hx
    rw [List.getElem?_take] at hi
    split at hi
    · rw [hval i x hi (by assumption)]; simp
    · simp at hi)
  have hlen : out.length = min c.ss (P.length - k * c.ss) := by
    have := congrArg List.length e2
    simpa using this
  refine ⟨ctx', out, e1, ?_, by omega, ?_⟩
  · rw [List.drop_drop] at e3
    rw [Nat.succ_mul]
    exact e3
  · intro o ho
    by_cases hlt : o < out.length
    · have h1 : (out.map some)[o]? = some (some (out.getD o 0xFF#8)) := by
        rw [List.getElem?_map, List.getD_eq_getElem?_getD, List.getElem?_eq_getElem hlt]; rfl
      rw [e2, List.getElem?_map, List.getElem?_take, if_pos (by omega)] at h1
      have hex : o < (P.drop (k * c.ss)).length := by rw [List.length_drop]; omega
      rw [List.getElem?_eq_getElem hex] at h1
      have := hval o _ (List.getElem?_eq_getElem hex) (by omega)
      simp only [Option.map_some, Option.some.injEq] at h1
      rw [this] at h1
      unfold padded
      rw [if_pos (by omega)]
      exact (Option.some.inj h1).symm
    · unfold padded
      rw [if_neg (by omega), List.getD_eq_getElem?_getD, List.getElem?_eq_none (by omega)]
      rfl

omit w in
theorem sectorGo_len {src : Nat → Option Byte} {patch : List Byte} {bk ss : Nat} : ∀ fuel ctx acc ctx' out,
    sectorGo src patch bk ss fuel ctx acc = .ok ctx' out → acc.length ≤ out.length := by
  intro fuel
  induction fuel with
  | zero => intro ctx acc ctx' out h; simp [sectorGo] at h
  | succ fuel ih =>
    intro ctx acc ctx' out h
    unfold sectorGo at h
    split at h
    · split at h
      · split at h
        · injection h with _ h; rw [h]; exact Nat.le_refl _
        · have := ih _ _ _ _ h
          rw [List.length_append] at this
          omega
      · next hne =>
        exact absurd h (hne _ _)
    · injection h with _ h; rw [h]; exact Nat.le_refl _

omit w in
/-- The inner loop writes the decoded sector to SWAP. -/
theorem patchToSwap_spec {T : Mem → Prop} {f0 : Flash} {ctx' : PCtx} {out : List Byte} (hout : out.length ≤ c.ss) :
    ∀ fuel ctx acc,
    sectorGo (bootSrc c f0) (slice (f0 .update) off size) d.bk c.ss fuel ctx acc = .ok ctx' out →
    Triple T false (fun f => f .boot = f0 .boot ∧ f .update = f0 .update ∧
        ∀ o, o < c.ss → f .swap o = acc.getD o 0xFF#8)
      (patchToSwap c d off size fuel ctx acc.length) false
      (fun r f => r = some ctx' ∧ f .boot = f0 .boot ∧ f .update = f0 .update ∧
        ∀ o, o < c.ss → f .swap o = out.getD o 0xFF#8)
      (fun f => f .boot = f0 .boot ∧ f .update = f0 .update) := by
  intro fuel
  induction fuel with
  | zero => intro ctx acc h; simp [sectorGo] at h
  | succ fuel ih =>
    intro ctx acc h
    have hgo := h
    unfold sectorGo at h
    unfold patchToSwap
    refine Triple.ite (fun hlt => ?_) (fun hge => ?_)
    · rw [if_pos hlt] at h
      refine Triple.readFlash (fun f ⟨hb, hu, hs⟩ => ?_)
      have hsrc : bootSrc c f = bootSrc c f0 := by unfold bootSrc; rw [hb]
      rw [hsrc, hu]
      cases hw : wbPatch (bootSrc c f0) (slice (f0 .update) off size) ctx d.bk with
      | ok c1 o =>
        rw [hw] at h
        dsimp only at h ⊢
        by_cases ho : o = []
        · rw [if_pos ho] at h ⊢
          injection h with h1 h2
          subst h1; subst h2
          exact (Triple.pure (Q := fun r f => r = some c1 ∧ f .boot = f0 .boot ∧ f .update = f0 .update ∧
            ∀ o, o < c.ss → f .swap o = acc.getD o 0xFF#8) (some c1)).pre (fun g hg => by
              rw [hg]; exact ⟨rfl, hb, hu, hs⟩)
        · rw [if_neg ho] at h ⊢
          have hle := sectorGo_len _ _ _ _ _ h
          rw [List.length_append] at hle
          have := ih c1 (acc ++ o) h
          rw [List.length_append] at this
          refine Triple.bind (Triple.program ?_ ?_ ?_) (fun _ => this)
          · rintro g rfl i hi
            rw [hs _ (by omega), List.getD_eq_getElem?_getD, List.getElem?_eq_none (by omega)]
            exact BitVec.allOnes_and
          · rintro g rfl
            have hsm := same_program g .swap acc.length o.length (fun i => o.getD i 0xFF#8)
            refine ⟨by rw [hsm.other (by simp)]; exact hb, by rw [hsm.other (by simp)]; exact hu, ?_⟩
            intro x hx
            unfold Flash.program
            by_cases hin : acc.length ≤ x ∧ x < acc.length + o.length
            · rw [if_pos ⟨rfl, hin⟩, hs x hx]
              simp only [List.getD_eq_getElem?_getD]
              rw [List.getElem?_eq_none hin.1, List.getElem?_append_right hin.1]
              exact BitVec.allOnes_and
            · rw [if_neg (fun h => hin h.2), hs x hx]
              simp only [List.getD_eq_getElem?_getD]
              by_cases hxa : x < acc.length
              · rw [List.getElem?_append_left hxa]
              · rw [List.getElem?_eq_none (by omega), List.getElem?_eq_none (by
                  rw [List.length_append]; omega)]
          · rintro t g _ rfl
            have hsm := same_tornProgram c t g .swap acc.length o.length (fun i => o.getD i 0xFF#8)
            exact ⟨by rw [hsm.other (by simp)]; exact hb, by rw [hsm.other (by simp)]; exact hu⟩
      | err => rw [hw] at h; simp at h
      | oob => rw [hw] at h; simp at h
      | dst => rw [hw] at h; simp at h
      | fuel => rw [hw] at h; simp at h
    · rw [if_neg hge] at h
      injection h with h1 h2
      subst h1; subst h2
      exact (Triple.pure (Q := fun r f => r = some ctx ∧ f .boot = f0 .boot ∧ f .update = f0 .update ∧
        ∀ o, o < c.ss → f .swap o = acc.getD o 0xFF#8) (some ctx)).pre (fun g hg => ⟨rfl, hg⟩)

/-! ## One sector -/

omit w in
/-- A sector flag that is neither NEW nor SWAPPING. -/
theorem torn_flag_updated : ∀ t : Byte, (FL_SWAPPING &&& (FL_UPDATED ||| t)) = FL_SWAPPING ∨
    ((FL_SWAPPING &&& (FL_UPDATED ||| t)) ≠ FL_NEW ∧ (FL_SWAPPING &&& (FL_UPDATED ||| t)) ≠ FL_SWAPPING) := by
  decide

theorem last_of_upd {x : Nat} (hU : ImgOK c U) (hx : x < imgLen c U) : x < c.last := by
  have := hU.fits; omega

/-- Frame rule. -/
theorem DI.frame {f f' : Flash} {k : Nat} {sw : Bool} (hU : ImgOK c U) (h : DI c X Y U inv P k sw f)
    (hu : ∀ x, x < c.last → f' .update x = f .update x)
    (hb : ∀ x, (x < k * c.ss ∨ (if sw = true then k * c.ss + c.ss else k * c.ss) ≤ x) → x < c.last →
      f' .boot x = f .boot x)
    (hsw : sw = true → ∀ o, o < c.ss → f' .swap o = f .swap o)
    (hfl : ∀ j, j < c.n - 1 → rawFlag c f' j = rawFlag c f j)
    (hmp : MagicP c f' .update) (hm : hasMagic c f .update → hasMagic c f' .update)
    (hst : f' .update (trailerAt c 1) = f .update (trailerAt c 1))
    (ht : inv = true → ∀ x, c.last ≤ x → f' .boot x = f .boot x)
    (hhdr : k = 0 → sw = true → inv = true → fwSize c (f' .boot) + c.h ≤ c.last)
    (hntB : le32 (f' .boot) c.tmp ≠ MAGIC_TRAIL) (hX : ImgOK c X) :
    DI c X Y U inv P k sw f' := by
  have hn2 := w.n2
  have hss := w.ss_pos
  have hle := w.last_eq
  have hkl : k * c.ss ≤ c.last := Nat.mul_le_mul_right _ h.kle
  have hfX := hX.fits
  have hfU := hU.fits
  have hkle := h.kle
  refine ⟨?_, h.kle, h.swk, ?_, ?_, ?_, ?_, ?_, ?_, hmp, fun hh => hm (h.magic hh), by rw [hst]; exact h.st, ?_,
    hhdr, hntB, ?_⟩
  · intro o h1 h2; rw [hu o (by omega)]; exact h.upd o h1 h2
  · intro x hx; rw [hb x (Or.inl hx) (by omega)]; exact h.done x hx
  · intro x hx hxX; rw [hb x (Or.inr hx) (by omega)]; exact h.rest x hx hxX
  · intro j hj; rw [hfl j (by omega)]; exact h.fdone j hj
  · intro hk; rw [hfl k hk]; exact h.fcur hk
  · intro j hj hjn; rw [hfl j hjn]; exact h.fnew j hj hjn
  · intro hs o ho; rw [hsw hs o ho]; exact h.swap hs o ho
  · intro hi; exact testing_frame w (ht hi) (h.test hi)
  · rw [le32_congr (m := f' .update) (x := f .update) (fun o _ _ => hu o (by omega))]
    exact h.ntU

/-- Only SWAP changes. -/
theorem DI.swapOnly {f f' : Flash} {k : Nat} (hp : DParm c d X Y U inv off size P)
    (h : DI c X Y U inv P k false f) (hb : f' .boot = f .boot) (hu : f' .update = f .update) :
    DI c X Y U inv P k false f' := by
  have hn2 := w.n2
  obtain ⟨h1, h2, h3, h4⟩ := trailer_frame w (f := f) (f' := f') (fun x _ => by rw [hu])
  exact h.frame w hp.hU (fun x _ => by rw [hu]) (fun x _ _ => by rw [hb]) (by simp)
    (fun j hj => h1 j (by omega)) (h3 h.magicP) h2.mpr h4 (fun _ x _ => by rw [hb]) (by simp)
    (by rw [hb]; exact h.ntB) hp.hX

theorem DI.flag {f : Flash} {k : Nat} {sw : Bool} (h : DI c X Y U inv P k sw f) (hk : k < c.n - 1) :
    (getFlag c f k).getD FL_NEW = if sw = true then FL_SWAPPING else FL_NEW := by
  have hf := h.fcur hk
  unfold getFlag
  split
  · exact hf
  · next hm =>
    cases sw with
    | false => rfl
    | true => exact absurd (h.magic (Or.inr (Or.inr rfl))) hm

theorem DI.flagDone {f : Flash} {j k : Nat} {sw : Bool} (h : DI c X Y U inv P k sw f) (hj : j < k) :
    (getFlag c f j).getD FL_NEW ≠ FL_NEW ∧ (getFlag c f j).getD FL_NEW ≠ FL_SWAPPING := by
  unfold getFlag
  rw [if_pos (h.magic (Or.inr (Or.inl (by omega))))]
  exact h.fdone j hj

/-- Header of BOOT when the first sector is still the base. -/
theorem fw_base {m : Mem} (hX : ImgOK c X) (h : Agree m X 0 8) : fwSize c m + c.h = imgLen c X := by
  rw [fwSize_congr h, fwSize_of_open (hX.openOK w)]; rfl

theorem padded_hdr (hp : DParm c d X Y U inv off size P) : Agree (padded P Y) Y 0 8 := by
  intro o _ ho
  have h8 := w.h8
  have := hp.len
  unfold imgLen at this
  unfold padded
  rw [if_pos (by omega)]

/-- Marking a sector as UPDATED after SWAP has been copied to BOOT. -/
theorem mark_updated {k : Nat} (hp : DParm c d X Y U inv off size P) {f0 : Flash}
    (hI : DI c X Y U inv P k true f0) (hc : ∀ o, o < c.ss → f0 .boot (k * c.ss + o) = padded P Y (k * c.ss + o)) :
    Triple (TD c inv) false (fun f => f = f0) (markSector c k FL_UPDATED) false
      (fun _ f => DI c X Y U inv P (k + 1) false f) (DIx c X Y U inv P) := by
  have hk := hI.swk rfl
  have hn2 := w.n2
  have hss := w.ss_pos
  have hle := w.last_eq
  have hpe := w.part_eq
  have hl := Cfg.WF.sec_le_last hk
  have hfU := hp.hU.fits
  have hfX := hp.hX.fits
  have hfl := hI.fcur hk
  rw [if_pos rfl] at hfl
  -- the sector counts as done
  have hadv : ∀ f, Same .update c.last c.part f0 f → hasMagic c f .update →
      f .update (trailerAt c 1) = f0 .update (trailerAt c 1) →
      (∀ j, j < c.n → j ≠ k → rawFlag c f j = rawFlag c f0 j) →
      (rawFlag c f k ≠ FL_NEW ∧ rawFlag c f k ≠ FL_SWAPPING) → DI c X Y U inv P (k + 1) false f := by
    intro f hs hm hst hoth hfk
    have hb : f .boot = f0 .boot := hs.other (by simp)
    have hk1 : (k + 1) * c.ss = k * c.ss + c.ss := Nat.succ_mul _ _
    refine ⟨?_, by omega, by simp, ?_, ?_, ?_, ?_, ?_, by simp, hm.magicP, fun _ => hm, by rw [hst]; exact hI.st,
      ?_, by simp, by rw [hb]; exact hI.ntB, ?_⟩
    · intro o h1 h2; rw [hs.out (by omega)]; exact hI.upd o h1 h2
    · intro x hx
      rw [hb]
      by_cases h : x < k * c.ss
      · exact hI.done x h
      · have := hc (x - k * c.ss) (by omega)
        rw [show k * c.ss + (x - k * c.ss) = x by omega] at this
        exact this
    · intro x hx hxX
      rw [hb]
      exact hI.rest x (by simp at hx ⊢; omega) hxX
    · intro j hj
      by_cases h : j = k
      · subst h; exact hfk
      · rw [hoth j (by omega) h]; exact hI.fdone j (by omega)
    · intro h
      simp only [Bool.false_eq_true, if_false]
      rw [hoth _ (by omega) (by omega)]
      exact hI.fnew _ (by omega) h
    · intro j hj hjn
      rw [hoth _ (by omega) (by omega)]
      exact hI.fnew _ (by omega) hjn
    · intro hi
      exact testing_frame w (fun x _ => by rw [hb]) (hI.test hi)
    · rw [le32_congr (m := f .update) (x := f0 .update) (fun o _ _ => hs.out (by omega))]
      exact hI.ntU
  unfold markSector
  rw [if_pos (by rw [Nat.succ_mul]; omega)]
  refine (setFlag_spec w f0 k (by omega) FL_UPDATED (by decide) hI.magicP
    (by rw [hfl]; decide)).conseq (fun _ h => h) ?_ ?_
  · rintro _ f ⟨h1, h2, h3, h4, h5⟩
    exact hadv f h1 h2 h3 h5 (by rw [h4]; decide)
  · rintro f ⟨h1, h2, h3, h4, h5⟩
    have hm := h2 (hI.magic (Or.inr (Or.inr rfl)))
    have hb : f .boot = f0 .boot := h1.other (by simp)
    have hold : rawFlag c f k = rawFlag c f0 k → DIx c X Y U inv P f := by
      intro he
      refine ⟨k, true, hI.frame w hp.hU (fun x hx => h1.out (by omega)) (fun x _ _ => by rw [hb])
        (fun _ o _ => by rw [h1.other (by simp)]) ?_ hm.magicP (fun _ => hm) h3 (fun _ x _ => by rw [hb])
        (by rw [hb]; exact hI.hdr) (by rw [hb]; exact hI.ntB) hp.hX⟩
      intro j hj
      by_cases h : j = k
      · rw [h]; exact he
      · exact h4 j (by omega) h
    rcases h5 with ⟨_, h5⟩ | ⟨_, t, h5⟩
    · exact hold h5
    · rw [hfl] at h5 hold
      rcases torn_flag_updated t with h | h
      · exact hold (h5.trans h)
      · exact ⟨k + 1, false, hadv f h1 hm h3 h4 (by rw [h5]; exact h)⟩

/-- Copying SWAP to BOOT. -/
theorem deltaCopy_spec {k : Nat} (hp : DParm c d X Y U inv off size P) :
    Triple (TD c inv) false (DI c X Y U inv P k true) (deltaCopy c k) false
      (fun _ f => DI c X Y U inv P (k + 1) false f) (DIx c X Y U inv P) := by
  refine Triple.ofEq (fun f0 hI => ?_)
  have hk := hI.swk rfl
  have hn2 := w.n2
  have hss := w.ss_pos
  have h4 := w.fb4
  have hfb := w.fb_le
  have h8 := w.h8
  have hhle := w.h_le
  have hle := w.last_eq
  have hpe := w.part_eq
  have hl := Cfg.WF.sec_le_last hk
  have hfU := hp.hU.fits
  have hfX := hp.hX.fits
  have hfY := hp.hY.fits
  have hsb : secOff c .boot k = k * c.ss := by simp [secOff]
  have hssw : secOff c .swap k = 0 := by simp [secOff]
  have hcopied : ∀ o, o < c.ss → copied c c.ss 0 (f0 .swap) o = padded P Y (k * c.ss + o) := by
    intro o ho
    rw [copied_lt (by omega) (by omega), Nat.zero_add]
    exact hI.swap rfl o ho
  have hswapw : k = c.n - 2 → le32 (f0 .swap) 0 ≠ MAGIC_TRAIL := by
    intro hk2
    have ht := tmp_sec w hk2
    have : le32 (f0 .swap) 0 = le32 (padded P Y) c.tmp := by
      unfold le32
      have := hI.swap rfl
      rw [ht] at this
      have h0 := this 0 (by omega)
      rw [Nat.add_zero] at h0
      rw [h0, this (0 + 1) (by omega), this (0 + 2) (by omega), this (0 + 3) (by omega)]
    rw [this]
    exact hp.quiet
  have hframe : ∀ f, Same .boot (k * c.ss) (k * c.ss + c.ss) f0 f →
      le32 (f .boot) c.tmp ≠ MAGIC_TRAIL →
      (k = 0 → inv = true → fwSize c (f .boot) + c.h ≤ c.last) → DI c X Y U inv P k true f := by
    intro f hs hB hh
    have hu : f .update = f0 .update := hs.other (by simp)
    obtain ⟨h1, h2, h3, h5⟩ := trailer_frame w (f := f0) (f' := f) (fun x _ => by rw [hu])
    refine hI.frame w hp.hU (fun x _ => by rw [hu]) (fun x hx _ => hs.out (by simpa using hx))
      (fun _ o _ => by rw [hs.other (by simp)]) (fun j hj => h1 j (by omega)) (h3 hI.magicP) h2.mpr h5
      (fun _ x hx => hs.out (by omega)) (fun a _ b => hh a b) hB hp.hX
  have hpad : ∀ m : Mem, Agree m (padded P Y) 0 8 → fwSize c m + c.h ≤ c.last := by
    intro m hm
    rw [fw_base w hp.hY (fun o h1 h2 => (hm o h1 h2).trans (padded_hdr w hp o h1 h2))]
    exact hfY
  unfold deltaCopy
  refine Triple.bind ((copySector_specS w (by simp) f0).conseq (fun _ h => h) (fun _ _ h => h) ?_)
    (fun _ => ?_)
  · rintro f (rfl | ⟨hs, hw⟩)
    · exact ⟨k, true, hI⟩
    · rw [hsb] at hs hw
      rw [hssw] at hw
      have hw := hw (Or.inr (by omega))
      refine ⟨k, true, hframe f hs ?_ ?_⟩
      · refine nt_copy w (src := .swap) hk (by simp) (by rw [hsb]; exact hs) hI.ntB (fun hk2 => ?_)
        have ht := tmp_sec w hk2
        rw [ht] at hw
        rcases hw with ⟨t, hT, hw⟩ | hw | hw
        · rw [hw]; exact hT.1
        · rw [hw]; decide
        · rcases copied_word w (m := f .boot) (a := c.tmp) (fun o ho => hw o (by omega)) with h | h
          · rw [h]; exact hswapw hk2
          · rw [h]; decide
      · intro hk0 hi
        subst hk0
        rw [Nat.zero_mul] at hw
        have hfb8 := hp.fb8 hi
        have hno : le32 (f .boot) 0 ≠ MAGIC → fwSize c (f .boot) + c.h ≤ c.last := by
          intro hne
          unfold fwSize
          rw [if_pos hne]
          omega
        rcases hw with ⟨t, hT, hw⟩ | hw | hw
        · exact hno (by rw [hw]; exact hT.2 hi)
        · exact hno (by rw [hw]; decide)
        · refine hpad _ (fun o _ ho => ?_)
          have h1 := hw o (by omega)
          have h2 := hcopied o (by omega)
          rw [Nat.zero_mul, Nat.zero_add] at h2
          rw [Nat.zero_add, h2] at h1
          exact h1
  · refine Triple.ofEq (fun f ⟨hs, hcp⟩ => ?_)
    rw [hsb] at hs hcp
    rw [hssw] at hcp
    have hc2 : ∀ o, o < c.ss → f .boot (k * c.ss + o) = padded P Y (k * c.ss + o) := fun o ho =>
      (hcp o ho).trans (hcopied o ho)
    refine mark_updated w hp (hframe f hs ?_ ?_) hc2
    · refine nt_copy w (src := .swap) hk (by simp) (by rw [hsb]; exact hs) hI.ntB (fun hk2 => ?_)
      have ht := tmp_sec w hk2
      rw [ht] at hc2
      have : le32 (f .boot) c.tmp = le32 (padded P Y) c.tmp := by
        refine le32_congr (fun o h1 h2 => ?_)
        have := hc2 (o - c.tmp) (by omega)
        rw [show c.tmp + (o - c.tmp) = o by omega] at this
        exact this
      rw [this]; exact hp.quiet
    · intro hk0 hi
      subst hk0
      refine hpad _ (fun o _ ho => ?_)
      have := hc2 o (by omega)
      rw [Nat.zero_mul, Nat.zero_add] at this
      exact this

omit w in
/-- A sector that is finished: the patch is decoded, nothing is written. -/
theorem deltaSector_skip {T C} {f0 : Flash} {s : Nat} {ctx : PCtx} (h6 : 6 ≤ d.bk) (hd : d.bk ∣ c.ss)
    (hp : HasPatch c U inv off size P) (hu : Agree (f0 .update) U 0 (imgLen c U))
    (hfl : (getFlag c f0 s).getD FL_NEW ≠ FL_NEW ∧ (getFlag c f0 s).getD FL_NEW ≠ FL_SWAPPING)
    (hrem : Rem (slice U off size) ctx (P.drop (s * c.ss))) :
    Triple T false (fun f => f = f0) (deltaSector c d off size s ctx) false
      (fun r f => f = f0 ∧ ∃ ctx', r = some ctx' ∧ Rem (slice U off size) ctx' (P.drop ((s + 1) * c.ss))) C := by
  unfold deltaSector
  refine Triple.readFlash (fun f hf => ?_)
  subst hf
  obtain ⟨ctx', out, h1, h2, _⟩ := sector_consume (f := f) h6 hd hp.read hrem
  rw [if_neg hfl.1, slice_upd hp.inside hu, h1]
  dsimp only
  rw [if_neg hfl.2]
  exact (Triple.pure (Q := fun r g => g = f ∧ ∃ ctx', r = some ctx' ∧ Rem (slice U off size) ctx'
    (P.drop ((s + 1) * c.ss))) (some ctx')).pre (fun g hg => ⟨hg, ctx', rfl, h2⟩)

/-- Decoding a sector into SWAP. -/
theorem toSwap_spec {T} {f0 : Flash} {s : Nat} {ctx ctx' : PCtx} {out : List Byte}
    (h1 : sectorGo (bootSrc c f0) (slice (f0 .update) off size) d.bk c.ss (c.ss + 2) ctx [] = .ok ctx' out)
    (hlen : out.length ≤ c.ss) :
    Triple T false (fun f => f = f0) (erase c .swap 0 c.ss >>= fun _ => patchToSwap c d off size (c.ss + 2) ctx 0)
      false
      (fun r f => r = some ctx' ∧ f .boot = f0 .boot ∧ f .update = f0 .update ∧
        ∀ o, o < c.ss → f .swap o = out.getD o 0xFF#8)
      (fun f => f .boot = f0 .boot ∧ f .update = f0 .update) := by
  refine Triple.bind (l' := false) (Q := fun _ f => f .boot = f0 .boot ∧ f .update = f0 .update ∧
        ∀ o, o < c.ss → f .swap o = ([] : List Byte).getD o 0xFF#8) ?_ (fun _ => ?_)
  · refine Triple.erase ?_ ?_
    · rintro f rfl
      have hs := same_erase f .swap 0 c.ss
      refine ⟨hs.other (by simp), hs.other (by simp), ?_⟩
      intro o ho
      unfold Flash.erase
      rw [if_pos ⟨rfl, by omega, by omega⟩]
      rfl
    · rintro t f _ rfl
      have hs := same_tornErase c t f .swap 0 c.ss
      exact ⟨hs.other (by simp), hs.other (by simp)⟩
  · exact patchToSwap_spec hlen (c.ss + 2) ctx [] h1

/-- The current sector. -/
theorem deltaSector_cur {k : Nat} {sw : Bool} {ctx : PCtx} (hp : DParm c d X Y U inv off size P)
    (hk : k < c.n - 1) (hrem : Rem (slice U off size) ctx (P.drop (k * c.ss))) :
    Triple (TD c inv) false (DI c X Y U inv P k sw) (deltaSector c d off size k ctx) false
      (fun r f => DI c X Y U inv P (k + 1) false f ∧ ∃ ctx', r = some ctx' ∧
        Rem (slice U off size) ctx' (P.drop ((k + 1) * c.ss))) (DIx c X Y U inv P) := by
  have hn2 := w.n2
  have hss := w.ss_pos
  have h8 := w.h8
  have hpe := w.part_eq
  have hl := Cfg.WF.sec_le_last hk
  have hfX := hp.hX.fits
  have hfU := hp.hU.fits
  have hX8 : 8 ≤ imgLen c X := by unfold imgLen; omega
  unfold deltaSector
  refine Triple.readFlash (fun f0 hI => ?_)
  rw [hI.flag w hk]
  have hfin : ∀ ctx', Rem (slice U off size) ctx' (P.drop ((k + 1) * c.ss)) →
      Triple (TD c inv) false (DI c X Y U inv P k true) (deltaCopy c k >>= fun _ => pure (some ctx')) false
      (fun r f => DI c X Y U inv P (k + 1) false f ∧ ∃ ctx', r = some ctx' ∧
        Rem (slice U off size) ctx' (P.drop ((k + 1) * c.ss))) (DIx c X Y U inv P) := by
    intro ctx' hr
    refine Triple.bind (deltaCopy_spec w hp) (fun _ => ?_)
    exact (Triple.pure (Q := fun r f => DI c X Y U inv P (k + 1) false f ∧ ∃ ctx', r = some ctx' ∧
        Rem (slice U off size) ctx' (P.drop ((k + 1) * c.ss))) (some ctx')).pre (fun g hg => ⟨hg, ctx', rfl, hr⟩)
  cases sw with
  | true =>
    obtain ⟨ctx', out, h1, h2, _⟩ := sector_consume (f := f0) hp.bk6 hp.bkd hp.patch.read hrem
    rw [if_pos rfl, if_neg (by decide), slice_upd hp.patch.inside hI.upd, h1]
    dsimp only
    rw [if_pos rfl]
    exact (hfin ctx' h2).pre (fun g hg => by rw [hg]; exact hI)
  | false =>
    obtain ⟨ctx', out, h1, h2, h3, h4⟩ := sector_bytes w hp hI hk hrem
    simp only [Bool.false_eq_true, if_false]
    rw [if_pos trivial]
    have hts := toSwap_spec w (T := TD c inv) (s := k) (by rw [slice_upd hp.patch.inside hI.upd]; exact h1) h3
    have hassoc : ∀ (g : Option PCtx → M (Option PCtx)),
        (erase c .swap 0 c.ss >>= fun _ => patchToSwap c d off size (c.ss + 2) ctx 0 >>= g) =
        ((erase c .swap 0 c.ss >>= fun _ => patchToSwap c d off size (c.ss + 2) ctx 0) >>= g) := by
      intro g
      funext x
      simp only [bind, M.bind]
      cases erase c .swap 0 c.ss x <;> rfl
    rw [hassoc]
    refine Triple.bind (hts.conseq (fun _ h => h) (fun _ _ h => h) ?_) (fun r => ?_)
    · rintro f ⟨hb, hu⟩
      exact ⟨k, false, hI.swapOnly w hp hb hu⟩
    · refine Triple.ofEq (fun f ⟨hr, hb, hu, hsw⟩ => ?_)
      subst hr
      dsimp only
      have hI1 := hI.swapOnly w hp hb hu
      have hfl := hI1.fcur hk
      rw [if_neg (by simp)] at hfl
      have hadv : ∀ g, Same .update c.last c.part f g → hasMagic c g .update →
          g .update (trailerAt c 1) = f .update (trailerAt c 1) →
          (∀ j, j < c.n → j ≠ k → rawFlag c g j = rawFlag c f j) →
          rawFlag c g k = FL_SWAPPING → DI c X Y U inv P k true g := by
        intro g hs hm hst hoth hfk
        have hgb : g .boot = f .boot := hs.other (by simp)
        have hgs : g .swap = f .swap := hs.other (by simp)
        refine ⟨?_, by omega, fun _ => hk, ?_, ?_, ?_, ?_, ?_, ?_, hm.magicP, fun _ => hm, by rw [hst]; exact hI1.st,
          ?_, ?_, by rw [hgb]; exact hI1.ntB, ?_⟩
        · intro o h1 h2; rw [hs.out (by omega)]; exact hI1.upd o h1 h2
        · intro x hx; rw [hgb]; exact hI1.done x hx
        · intro x hx hxX; rw [hgb]; exact hI1.rest x (by simp at hx ⊢; omega) hxX
        · intro j hj; rw [hoth j (by omega) (by omega)]; exact hI1.fdone j hj
        · intro _; rw [if_pos rfl]; exact hfk
        · intro j hj hjn; rw [hoth j (by omega) (by omega)]; exact hI1.fnew j hj hjn
        · intro _ o ho; rw [hgs, hsw o ho]; exact h4 o ho
        · intro hi; exact testing_frame w (fun x _ => by rw [hgb]) (hI1.test hi)
        · intro hk0 _ hi
          rw [hgb, fw_base w hp.hX (fun o _ ho => hI1.rest o (by simp [hk0]) (by omega))]
          exact hfX
        · rw [le32_congr (m := g .update) (x := f .update) (fun o _ _ => hs.out (by have := w.last_eq; omega))]
          exact hI1.ntU
      refine Triple.bind (l' := false) (Q := fun _ => DI c X Y U inv P k true) ?_ (fun _ => hfin ctx' h2)
      refine (setFlag_spec w f k (by omega) FL_SWAPPING (by decide) hI1.magicP
        (by rw [hfl]; decide)).conseq (fun _ h => h) ?_ ?_
      · rintro _ g ⟨h1, h2, h3, h4, h5⟩
        exact hadv g h1 h2 h3 h5 h4
      · rintro g ⟨h1, h2, h3, h4, h5⟩
        have hgb : g .boot = f .boot := h1.other (by simp)
        have hold : MagicP c g .update → rawFlag c g k = rawFlag c f k → DIx c X Y U inv P g := by
          intro hmp he
          refine ⟨k, false, hI1.frame w hp.hU (fun x hx => h1.out (by omega)) (fun x _ _ => by rw [hgb])
            (by simp) ?_ hmp h2 h3 (fun _ x _ => by rw [hgb])
            (by simp) (by rw [hgb]; exact hI1.ntB) hp.hX⟩
          intro j hj
          by_cases h : j = k
          · rw [h]; exact he
          · exact h4 j (by omega) h
        rcases h5 with ⟨hmp, h5⟩ | ⟨hm, t, h5⟩
        · exact hold hmp h5
        · rw [hfl] at h5
          rcases torn_flag_new w t with h | h
          · exact hold hm.magicP (by rw [h5, h, hfl])
          · exact ⟨k, true, hadv g h1 hm h3 h4 (h5.trans h)⟩

/-- The last sector of the partition (forward direction only). -/
theorem deltaSector_last {ctx : PCtx} (hp : DParm c d X Y U inv off size P) (hinv : inv = false)
    (hrem : Rem (slice U off size) ctx (P.drop ((c.n - 1) * c.ss))) :
    Triple (TD c inv) false (DI c X Y U inv P (c.n - 1) false) (deltaSector c d off size (c.n - 1) ctx) false
      (fun r f => DI c X Y U inv P (c.n - 1) false f ∧ ∃ ctx', r = some ctx' ∧
        Rem (slice U off size) ctx' (P.drop ((c.n - 1 + 1) * c.ss))) (DIx c X Y U inv P) := by
  have hn2 := w.n2
  have hss := w.ss_pos
  have hpe := w.part_eq
  have hle := w.last_eq
  have hfX := hp.hX.fits
  have hfU := hp.hU.fits
  have hlast : (c.n - 1) * c.ss = c.last := rfl
  -- changes of the trailer sectors
  have hfr : ∀ f g : Flash, DI c X Y U inv P (c.n - 1) false f → (∀ x, x < c.last → g .update x = f .update x) →
      (∀ x, x < c.last → g .boot x = f .boot x) → (∀ j, j < c.n - 1 → rawFlag c g j = rawFlag c f j) →
      (hasMagic c g .update) → g .update (trailerAt c 1) = f .update (trailerAt c 1) →
      DI c X Y U inv P (c.n - 1) false g := by
    intro f g hI hu hb hfl hm hst
    refine hI.frame w hp.hU hu (fun x _ hx => hb x hx) (by simp) hfl hm.magicP (fun _ => hm) hst
      (by simp [hinv]) (by simp) ?_ hp.hX
    rw [le32_congr (m := g .boot) (x := f .boot) (fun o _ _ => hb o (by omega))]
    exact hI.ntB
  have hcopy : Triple (TD c inv) false (DI c X Y U inv P (c.n - 1) false) (deltaCopy c (c.n - 1)) false
      (fun _ => DI c X Y U inv P (c.n - 1) false) (DIx c X Y U inv P) := by
    refine Triple.ofEq (fun f0 hI => ?_)
    have hsb : secOff c .boot (c.n - 1) = c.last := by simp [secOff, hlast]
    have hsame : ∀ g, Same .boot c.last (c.last + c.ss) f0 g → DI c X Y U inv P (c.n - 1) false g := by
      intro g hs
      have hu : g .update = f0 .update := hs.other (by simp)
      refine hfr f0 g hI (fun x _ => by rw [hu]) (fun x hx => hs.out (by omega)) ?_ ?_ (by rw [hu])
      · intro j _; unfold rawFlag; rw [hu]
      · have := hI.magic (Or.inl hinv)
        unfold hasMagic at this ⊢; rw [hu]; exact this
    unfold deltaCopy
    refine Triple.bind (l' := false) (Q := fun _ => DI c X Y U inv P (c.n - 1) false)
      ((copySector_specS w (by simp) f0).conseq (fun _ h => h) ?_ ?_) (fun _ => ?_)
    · rintro _ g ⟨hs, _⟩
      rw [hsb] at hs
      exact hsame g hs
    · rintro g (rfl | ⟨hs, _⟩)
      · exact ⟨_, _, hI⟩
      · rw [hsb] at hs
        exact ⟨_, _, hsame g hs⟩
    · unfold markSector
      rw [if_neg (by rw [Nat.succ_mul]; omega)]
      exact Triple.pure (Q := fun _ => DI c X Y U inv P (c.n - 1) false) ()
  have hfin : ∀ ctx', Rem (slice U off size) ctx' (P.drop ((c.n - 1 + 1) * c.ss)) →
      Triple (TD c inv) false (DI c X Y U inv P (c.n - 1) false)
      (deltaCopy c (c.n - 1) >>= fun _ => pure (some ctx')) false
      (fun r f => DI c X Y U inv P (c.n - 1) false f ∧ ∃ ctx', r = some ctx' ∧
        Rem (slice U off size) ctx' (P.drop ((c.n - 1 + 1) * c.ss))) (DIx c X Y U inv P) := by
    intro ctx' hr
    refine Triple.bind hcopy (fun _ => ?_)
    exact (Triple.pure (Q := fun r f => DI c X Y U inv P (c.n - 1) false f ∧ ∃ ctx', r = some ctx' ∧
        Rem (slice U off size) ctx' (P.drop ((c.n - 1 + 1) * c.ss))) (some ctx')).pre
        (fun g hg => ⟨hg, ctx', rfl, hr⟩)
  unfold deltaSector
  refine Triple.readFlash (fun f0 hI => ?_)
  have hm := hI.magic (Or.inl hinv)
  obtain ⟨ctx', out, h1, h2, h3⟩ := sector_consume (f := f0) hp.bk6 hp.bkd hp.patch.read hrem
  refine Triple.ite (fun hnew => ?_) (fun hnew => ?_)
  · have hts := toSwap_spec w (T := TD c inv) (s := c.n - 1)
      (by rw [slice_upd hp.patch.inside hI.upd]; exact h1) h3
    have hassoc : ∀ (g : Option PCtx → M (Option PCtx)),
        (erase c .swap 0 c.ss >>= fun _ => patchToSwap c d off size (c.ss + 2) ctx 0 >>= g) =
        ((erase c .swap 0 c.ss >>= fun _ => patchToSwap c d off size (c.ss + 2) ctx 0) >>= g) := by
      intro g
      funext x
      simp only [bind, M.bind]
      cases erase c .swap 0 c.ss x <;> rfl
    rw [hassoc]
    refine Triple.bind (hts.conseq (fun _ h => h) (fun _ _ h => h) ?_) (fun r => ?_)
    · rintro f ⟨hb, hu⟩
      exact ⟨_, false, hI.swapOnly w hp hb hu⟩
    · refine Triple.ofEq (fun f ⟨hr, hb, hu, hsw⟩ => ?_)
      subst hr
      dsimp only
      have hI1 := hI.swapOnly w hp hb hu
      have hm1 := hI1.magic (Or.inl hinv)
      have hfl : rawFlag c f (c.n - 1) = FL_NEW := by
        unfold getFlag at hnew
        rw [if_pos hm] at hnew
        unfold rawFlag at hnew ⊢
        rw [hu]
        exact hnew
      refine Triple.bind (l' := false) (Q := fun _ => DI c X Y U inv P (c.n - 1) false) ?_
        (fun _ => hfin ctx' h2)
      refine (setFlag_spec w f (c.n - 1) (by omega) FL_SWAPPING (by decide) hI1.magicP
        (by rw [hfl]; decide)).conseq (fun _ h => h) ?_ ?_
      · rintro _ g ⟨h1, h2, h3, h4, h5⟩
        refine hfr f g hI1 (fun x hx => h1.out (by omega)) (fun x _ => by rw [h1.other (by simp)])
          (fun j hj => h5 j (by omega) (by omega)) h2 h3
      · rintro g ⟨h1, h2, h3, h4, h5⟩
        exact ⟨_, _, hfr f g hI1 (fun x hx => h1.out (by omega)) (fun x _ => by rw [h1.other (by simp)])
          (fun j hj => h4 j (by omega) (by omega)) (h2 hm1) h3⟩
  · rw [slice_upd hp.patch.inside hI.upd, h1]
    dsimp only
    refine Triple.ite (fun _ => ?_) (fun _ => ?_)
    · exact (hfin ctx' h2).pre (fun g hg => by rw [hg]; exact hI)
    · exact (Triple.pure (Q := fun r f => DI c X Y U inv P (c.n - 1) false f ∧ ∃ ctx', r = some ctx' ∧
        Rem (slice U off size) ctx' (P.drop ((c.n - 1 + 1) * c.ss))) (some ctx')).pre
        (fun g hg => by rw [hg]; exact ⟨hI, ctx', rfl, h2⟩)

end

end Verif
