import Verif.SignTool

/-!
# Signing tool and bootloader agree (C15)
-/

namespace Verif

/-! ## Specification -/

/-- Value of the first field with tag `t` in a sequence of header operations. -/
def fieldOf (t : Nat) : List Item → Option (List Byte)
  | [] => none
  | .tag t' d :: r => if t' = t then some d else fieldOf t r
  | _ :: r => fieldOf t r

/-- The header fields that the user asked for, in order of priority. -/
def SignOpts.fields (o : SignOpts) (digest : List Byte) : List (Nat × List Byte) :=
  [(0x01, u32 o.version)] ++ (o.timestamp.toList.map fun t => (0x02, t)) ++ [(0x04, u16 o.typ)] ++
  (o.delta.toList.flatMap fun d => [(0x05, u32 d.base), (0x06, u32 d.size), (0x15, u32 d.inv),
    (0x16, u32 d.invSize)] ++ d.baseHash.toList.map fun h => (0x07, h)) ++
  o.custom ++ [(0x10, o.hash o.pubkey)] ++
  (o.secondary.toList.flatMap fun s => [(0x11, s.1), (0x12, o.hash s.2)]) ++
  [(o.algo.tag, digest), (0x20, o.sign digest)] ++
  (o.secondary.toList.map fun _ => (0x22, o.sign2 digest)) ++ (o.policy.toList.map fun p => (0x21, p))

/-! ## Operations of the tool are well formed -/

/-- Parity knowledge after a sequence of operations. -/
def endE : Bool → List Item → Bool
  | e, [] => e
  | _, .align8 :: r => endE true r
  | _, .align4 :: r => endE true r
  | _, .tag _ d :: r => endE (d.length % 2 == 0) r

theorem itemsOK_append_iff (a b : List Item) : ∀ e, ItemsOK e (a ++ b) ↔ ItemsOK e a ∧ ItemsOK (endE e a) b := by
  induction a with
  | nil => intro e; simp [ItemsOK, endE]
  | cons i a ih =>
    intro e
    cases i with
    | tag t d => simp only [List.cons_append, ItemsOK, endE, ih, and_assoc]
    | align8 => simp only [List.cons_append, ItemsOK, endE, ih]
    | align4 => simp only [List.cons_append, ItemsOK, endE, ih]

theorem itemsOK_mono {is : List Item} {e : Bool} (h : ItemsOK e is) : ItemsOK true is := by
  cases is with
  | nil => trivial
  | cons i r => cases i <;> simp_all [ItemsOK]

theorem endE_append (a b : List Item) : ∀ e, endE e (a ++ b) = endE (endE e a) b := by
  induction a with
  | nil => intro e; rfl
  | cons i a ih => intro e; cases i <;> simp only [List.cons_append, endE, ih]

theorem endE_align8 (a : List Item) (e : Bool) : endE e (a ++ [.align8]) = true := by
  rw [endE_append]; rfl

theorem custom_ok (l : List (Nat × List Byte)) (h : ∀ c ∈ l, CustomOK c) : ∀ e,
    ItemsOK e (l.flatMap fun c => [.align8, .tag c.1 c.2]) := by
  induction l with
  | nil => intro e; trivial
  | cons c l ih =>
    intro e
    have hc := h c (by simp)
    show ItemsOK e ([.align8, .tag c.1 c.2] ++ l.flatMap fun c => [.align8, .tag c.1 c.2])
    rw [itemsOK_append_iff]
    refine ⟨⟨rfl, ⟨by have := hc.1; omega, hc.2.1, hc.2.2.2.1⟩, by have := hc.2.2.2.2; omega, trivial⟩, ?_⟩
    exact ih (fun c' hc' => h c' (by simp [hc'])) _

theorem part1_ok {o : SignOpts} {img : List Byte} (w : o.WF img) : ItemsOK true o.part1 := by
  unfold SignOpts.part1
  simp only [itemsOK_append_iff, endE_append]
  have hc := custom_ok o.custom w.cust
  refine ⟨⟨⟨⟨⟨?_, ?_⟩, ?_⟩, ?_⟩, hc _⟩, trivial⟩
  · simp [ItemsOK, TagOK, u32]
  · cases ht : o.timestamp with
    | none => trivial
    | some ts => simp [ItemsOK, TagOK, endE, w.ts ts ht]
  · cases ht : o.timestamp with
    | none => simp [ItemsOK, TagOK, endE, u16]
    | some ts => simp [ItemsOK, TagOK, endE, w.ts ts ht, u16]
  · cases hd : o.delta with
    | none => trivial
    | some d =>
      cases hb : d.baseHash with
      | none => simp [ItemsOK, TagOK, u32, hb]
      | some h => simp [ItemsOK, TagOK, u32, hb, w.bhash d h hd hb]

set_option linter.unusedSimpArgs false in
theorem part2_ok {o : SignOpts} {img : List Byte} (w : o.WF img) :
    ItemsOK true o.part2 ∧ endE true o.part2 = true := by
  have h1 := w.hlen o.pubkey
  unfold SignOpts.part2
  cases ha : o.algo <;> cases hs : o.secondary with
  | none => simp [ItemsOK, TagOK, endE, h1.1, h1.2]
  | some s =>
    obtain ⟨c, p⟩ := s
    have h2 := w.hlen p
    have h3 := w.cipher c p hs
    simp [ItemsOK, TagOK, endE, h1.1, h1.2, h2.1, h2.2, h3]

theorem part3_ok {o : SignOpts} {img : List Byte} (w : o.WF img) (e : Bool) :
    ItemsOK e (o.part3 (o.digest img)) := by
  unfold SignOpts.part3
  cases hs : o.secondary <;> cases hp : o.policy with
  | none => simp [ItemsOK, TagOK, w.sig, w.sig2]
  | some p => simp [ItemsOK, TagOK, w.sig, w.sig2, w.pol p hp]

theorem items_ok {o : SignOpts} {img : List Byte} (w : o.WF img) : ItemsOK true (o.items img) := by
  unfold SignOpts.items
  rw [itemsOK_append_iff, itemsOK_append_iff, endE_append]
  have h1 : endE true o.part1 = true := by
    unfold SignOpts.part1
    rw [endE_align8]
  rw [h1]
  refine ⟨⟨part1_ok w, (part2_ok w).1⟩, ?_⟩
  rw [(part2_ok w).2]
  refine ⟨rfl, ?_, (w.hlen _).2, part3_ok w _⟩
  cases o.algo <;> simp [TagOK, HashAlgo.tag]

/-! ## Absent fields are not found -/

theorem walk_ff {m : Mem} {H type q : Nat} {p : Nat} (hw : Walk m 0 H type p q) :
    ∀ e, p ≤ e → (∀ x, p ≤ x → x < e → m x = 0xFF#8) → m q ≠ 0xFF#8 → Walk m 0 H type e q := by
  induction hw with
  | here p =>
    intro e h1 h2 h3
    rcases Nat.lt_or_ge p e with h | h
    · exact absurd (h2 p (by omega) h) h3
    · have : p = e := by omega
      subst this
      exact .here _
  | pad a b c d ih =>
    next p q =>
    intro e h1 h2 h3
    rcases Nat.lt_or_ge p e with h | h
    · exact ih e h (fun x hx hx' => h2 x (by omega) hx') h3
    · have : p = e := by omega
      subst this
      exact .pad a b c d
  | tag a b c d e1 f g hh ih =>
    next p q =>
    intro e h1 h2 h3
    rcases Nat.lt_or_ge p e with h | h
    · exact absurd (h2 p (by omega) h) c
    · have : p = e := by omega
      subst this
      exact .tag a b c d e1 f g hh

theorem walk_absent {m : Mem} {H type : Nat} : ∀ (is : List Item) (e : Bool)
    (hd : List Byte), ItemsOK e is → (e = true → hd.length % 2 = 0) →
    HasBytes m (render hd is) → (render hd is).length ≤ H →
    (∀ x, (render hd is).length ≤ x → x < H → m x = 0xFF#8) → type ∉ tagsOf is → ∀ q, q + 4 < H →
    m q ≠ 0xFF#8 → le16 m q = type → ¬ Walk m 0 H type hd.length q := by
  intro is
  induction is with
  | nil =>
    intro e hd _ _ _ hl hff _ q hq hne _ hw
    have h := walk_ff hw H hl hff hne
    cases h <;> omega
  | cons i is ih =>
    intro e hd hok he hm hl hff hnt q hq hne ht hw
    have hm' : HasBytes m (render (i.app hd) is) := hm
    have hl' : (render (i.app hd) is).length ≤ H := hl
    have hpad : ∀ n, i.app hd = hd ++ List.replicate n 0xFF#8 → Walk m 0 H type (i.app hd).length q := by
      intro n hn
      refine walk_ff hw (i.app hd).length (by rw [hn]; simp) (fun x h1 h2 => ?_) hne
      have := hm'.of_render
      rw [hn] at this
      have := this.get (x - hd.length) 0xFF#8 (by
        rw [hn] at h2
        simp only [List.length_append, List.length_replicate] at h2
        rw [List.getElem?_replicate_of_lt (by omega)])
      rwa [show hd.length + (x - hd.length) = x by omega] at this
    cases i with
    | tag t d =>
      obtain ⟨rfl, htk, hdl, hr⟩ := hok
      simp only [tagsOf, List.mem_cons, not_or] at hnt
      obtain ⟨s, hs⟩ := render_prefix is ((Item.tag t d).app hd)
      have hm2 := hm'
      rw [hs] at hm2
      obtain ⟨g1, g2, g3, -⟩ := tagBytes htk hdl hm2
      have hlen : ((Item.tag t d).app hd).length = hd.length + 4 + d.length := by
        simp [Item.app, u16_length, Nat.mod_eq_of_lt hdl]
        omega
      have hev := he rfl
      cases hw with
      | here => exact hnt.1 (by rw [← ht, g1])
      | pad a b c _ =>
        rcases c with c | c
        · exact g2 c
        · omega
      | tag a b c d' e' f g hh =>
        rw [g3, ← hlen] at hh
        refine ih (d.length % 2 == 0) _ hr ?_ hm' hl' hff hnt.2 q hq hne ht hh
        intro he'
        rw [hlen]
        have : d.length % 2 = 0 := by simpa using he'
        omega
    | align8 =>
      refine ih true _ hok ?_ hm' hl' hff hnt q hq hne ht (hpad _ rfl)
      intro _
      simp only [Item.app, List.length_append, List.length_replicate]
      omega
    | align4 =>
      refine ih true _ hok ?_ hm' hl' hff hnt q hq hne ht (hpad _ rfl)
      intro _
      simp only [Item.app, List.length_append, List.length_replicate]
      omega

theorem fieldOf_split {t : Nat} {d : List Byte} : ∀ {is : List Item}, fieldOf t is = some d →
    ∃ a b, is = a ++ .tag t d :: b ∧ t ∉ tagsOf a := by
  intro is
  induction is with
  | nil => intro h; simp [fieldOf] at h
  | cons i is ih =>
    intro h
    cases i with
    | tag t' d' =>
      unfold fieldOf at h
      split at h
      · next heq =>
        subst heq
        obtain rfl := Option.some.inj h
        exact ⟨[], is, rfl, by simp [tagsOf]⟩
      · next hne =>
        obtain ⟨a, b, rfl, hn⟩ := ih h
        exact ⟨.tag t' d' :: a, b, rfl, by simp [tagsOf, hn, Ne.symm hne]⟩
    | align8 =>
      obtain ⟨a, b, rfl, hn⟩ := ih h
      exact ⟨.align8 :: a, b, rfl, hn⟩
    | align4 =>
      obtain ⟨a, b, rfl, hn⟩ := ih h
      exact ⟨.align4 :: a, b, rfl, hn⟩

theorem fieldOf_none {t : Nat} : ∀ {is : List Item}, fieldOf t is = none → t ∉ tagsOf is := by
  intro is
  induction is with
  | nil => intro _; simp [tagsOf]
  | cons i is ih =>
    intro h
    cases i with
    | tag t' d' =>
      unfold fieldOf at h
      split at h
      · simp at h
      · next hne => simp [tagsOf, ih h, Ne.symm hne]
    | align8 => exact ih h
    | align4 => exact ih h

/-- The fields of a sequence of operations. -/
def tagList : List Item → List (Nat × List Byte)
  | [] => []
  | .tag t d :: r => (t, d) :: tagList r
  | _ :: r => tagList r

theorem tagList_append (a b : List Item) : tagList (a ++ b) = tagList a ++ tagList b := by
  induction a with
  | nil => rfl
  | cons i a ih => cases i <;> simp [tagList, ih]

theorem tagList_custom (l : List (Nat × List Byte)) :
    tagList (l.flatMap fun c => [.align8, .tag c.1 c.2]) = l := by
  induction l with
  | nil => rfl
  | cons c l ih =>
    show tagList ([.align8, .tag c.1 c.2] ++ l.flatMap fun c => [.align8, .tag c.1 c.2]) = _
    rw [tagList_append, ih]
    rfl

theorem fieldOf_eq (t : Nat) (is : List Item) :
    fieldOf t is = ((tagList is).find? (·.1 = t)).map (·.2) := by
  induction is with
  | nil => rfl
  | cons i is ih =>
    cases i with
    | tag t' d => by_cases h : t' = t <;> simp [fieldOf, tagList, h, ih]
    | align8 => exact ih
    | align4 => exact ih

/-- The operations of the tool are the fields that the user asked for. -/
theorem tagList_items (o : SignOpts) (img : List Byte) :
    tagList (o.items img) = o.fields (o.digest img) := by
  have h1 : tagList o.part1 = [(0x01, u32 o.version)] ++ (o.timestamp.toList.map fun t => (0x02, t)) ++
      [(0x04, u16 o.typ)] ++
      (o.delta.toList.flatMap fun d => [(0x05, u32 d.base), (0x06, u32 d.size), (0x15, u32 d.inv),
        (0x16, u32 d.invSize)] ++ d.baseHash.toList.map fun h => (0x07, h)) ++ o.custom := by
    unfold SignOpts.part1
    simp only [tagList_append, tagList_custom]
    cases hts : o.timestamp <;> cases hdl : o.delta with
    | none => simp [tagList]
    | some d => cases h : d.baseHash <;> simp [tagList, h]
  have h2 : tagList o.part2 = [(0x10, o.hash o.pubkey)] ++
      (o.secondary.toList.flatMap fun s => [(0x11, s.1), (0x12, o.hash s.2)]) := by
    unfold SignOpts.part2
    cases o.algo <;> cases o.secondary <;> simp [tagList]
  have h3 : ∀ d, tagList (o.part3 d) = [(0x20, o.sign d)] ++
      (o.secondary.toList.map fun _ => (0x22, o.sign2 d)) ++ (o.policy.toList.map fun p => (0x21, p)) := by
    intro d
    unfold SignOpts.part3
    cases o.secondary <;> cases o.policy <;> simp [tagList]
  unfold SignOpts.items SignOpts.fields
  rw [tagList_append, tagList_append, h1, h2]
  simp [tagList, h3]

/-! ## C15 -/

/-- Memory that contains an output file of the tool at (even) offset 0. -/
structure Flashed (m : Mem) (o : SignOpts) (H : Nat) (img : List Byte) : Prop where
  file : ∃ l, signTool o H img = .file l ∧ HasBytes m l

theorem Flashed.len {m : Mem} {o : SignOpts} {H : Nat} {img : List Byte} (f : Flashed m o H img) :
    (render (u32 MAGIC ++ u32 img.length) (o.items img)).length ≤ H := by
  obtain ⟨l, hl, -⟩ := f.file
  unfold signTool at hl
  dsimp only at hl
  split at hl
  · simp at hl
  · omega

theorem Flashed.bytes {m : Mem} {o : SignOpts} {H : Nat} {img : List Byte} (f : Flashed m o H img) :
    HasBytes m (render (u32 MAGIC ++ u32 img.length) (o.items img) ++
      List.replicate (H - (render (u32 MAGIC ++ u32 img.length) (o.items img)).length) 0xFF#8 ++ img) := by
  obtain ⟨l, hl, hm⟩ := f.file
  have := f.len
  unfold signTool at hl
  dsimp only at hl
  rw [if_neg (by omega)] at hl
  cases hl
  exact hm

theorem find_field {m : Mem} {o : SignOpts} {H : Nat} {img : List Byte} (w : o.WF img) (hH : H < 65544)
    (f : Flashed m o H img) {a b : List Item} {t : Nat} {v : List Byte}
    (hs : o.items img = a ++ .tag t v :: b) (hn : t ∉ tagsOf a) (hv : v ≠ []) :
    findHdr m H t = .found ((render (u32 MAGIC ++ u32 img.length) a).length + 4) v.length ∧
      slice m ((render (u32 MAGIC ++ u32 img.length) a).length + 4) v.length = v := by
  have hl := f.len
  have hb := f.bytes.pre.pre
  have hk := items_ok w
  rw [hs] at hl hb hk
  exact find_rendered hH rfl hk hb hl hn (.inl (List.length_pos_iff.mpr hv))

/-- **C15 (exact lookup).** In an image made by the signing tool - for every combination of options,
for all custom fields accepted by the command line, all three hash algorithms, delta, hybrid
and policy images - the bootloader's lookup of any tag returns the value of the first
field with this tag that the user asked for, and finds nothing if there is none. (Header size
at most 65543, see `large_header_signature_lost`; fields of length 0 are excluded.) -/
theorem sign_lookup (m : Mem) (o : SignOpts) (H : Nat) (img : List Byte) (w : o.WF img)
    (hH : H < 65544) (f : Flashed m o H img) (t : Nat) :
    match (o.fields (o.digest img)).find? (·.1 = t) with
    | some (_, v) => v ≠ [] → ∃ off, findHdr m H t = .found off v.length ∧ slice m off v.length = v
    | none => t ≠ 0 → findHdr m H t = .notFound := by
  have he := fieldOf_eq t (o.items img)
  rw [tagList_items] at he
  cases hf : (o.fields (o.digest img)).find? (·.1 = t) with
  | some p =>
    obtain ⟨t', v⟩ := p
    rw [hf] at he
    intro hv
    obtain ⟨a, b, hs, hn⟩ := fieldOf_split he
    exact ⟨_, find_field w hH f hs hn hv⟩
  | none =>
    rw [hf] at he
    have hn := fieldOf_none he
    intro ht0
    rcases hfind : findHdr m H t with ⟨off, len⟩ | _ | _ | _
    · exfalso
      obtain ⟨h4, hlt, hw, ht, -, hne, -⟩ := (findHeader_iff m 0 H t off len).mp hfind
      refine walk_absent (o.items img) true (u32 MAGIC ++ u32 img.length) (items_ok w) (fun _ => by simp [u32_length])
        f.bytes.pre.pre f.len ?_ hn (off - 4) (by omega) hne ht hw
      intro x h1 h2
      have := f.bytes.pre.get (x - (render (u32 MAGIC ++ u32 img.length) (o.items img)).length) 0xFF#8
        (List.getElem?_replicate_of_lt (by omega))
      rwa [show ∀ a : Nat, a ≤ x → a + (x - a) = x from fun a h => by omega] at this
      exact h1
    · rfl
    · exact absurd hfind (findHeader_total m 0 H t).1
    · exact absurd hfind (findHeader_total m 0 H t).2

theorem le32_u32 {m : Mem} {off v : Nat} (hv : v < 4294967296) (h : slice m off 4 = u32 v) :
    le32 m off = v := by
  simp only [slice, u32, List.cons.injEq, and_true] at h
  obtain ⟨a, b, c, d⟩ := h
  unfold le32
  rw [a, b, c, d]
  simp only [BitVec.toNat_ofNat]
  omega

theorem le16_u16 {m : Mem} {off v : Nat} (hv : v < 65536) (h : slice m off 2 = u16 v) :
    le16 m off = v := by
  simp only [slice, u16, List.cons.injEq, and_true] at h
  obtain ⟨a, b⟩ := h
  unfold le16
  rw [a, b]
  simp only [BitVec.toNat_ofNat]
  omega

/-- A field of the tool that comes first under its tag. -/
theorem field_found {m : Mem} {o : SignOpts} {H : Nat} {img : List Byte} (w : o.WF img)
    (hH : H < 65544) (f : Flashed m o H img) {t : Nat} {v : List Byte}
    (h : (o.fields (o.digest img)).find? (·.1 = t) = some (t, v)) (hv : v ≠ []) :
    ∃ off, findHdr m H t = .found off v.length ∧ slice m off v.length = v := by
  have := sign_lookup m o H img w hH f t
  rw [h] at this
  exact this hv

/-- Custom fields never hide a field of the tool. -/
theorem find_custom_none {o : SignOpts} {img : List Byte} (w : o.WF img) {t : Nat} (ht : t < 0x30) :
    o.custom.find? (·.1 = t) = none := by
  rw [List.find?_eq_none]
  intro c hc
  have := (w.cust c hc).1
  simp only [decide_eq_true_eq]
  omega

theorem fields_find {o : SignOpts} {img : List Byte} (w : o.WF img) (d : List Byte) :
    (o.fields d).find? (·.1 = 0x01) = some (0x01, u32 o.version) ∧
    (o.fields d).find? (·.1 = 0x04) = some (0x04, u16 o.typ) ∧
    (o.fields d).find? (·.1 = 0x10) = some (0x10, o.hash o.pubkey) ∧
    (o.fields d).find? (·.1 = 0x20) = some (0x20, o.sign d) ∧
    (∀ c p, o.secondary = some (c, p) →
      (o.fields d).find? (·.1 = 0x12) = some (0x12, o.hash p) ∧
      (o.fields d).find? (·.1 = 0x22) = some (0x22, o.sign2 d)) := by
  have c4 := find_custom_none w (t := 0x04) (by omega)
  have c10 := find_custom_none w (t := 0x10) (by omega)
  have c12 := find_custom_none w (t := 0x12) (by omega)
  have c20 := find_custom_none w (t := 0x20) (by omega)
  have c22 := find_custom_none w (t := 0x22) (by omega)
  have ho : ∀ (f : List Byte → Nat × List Byte) (x : Option (List Byte)) (t : Nat), (∀ y, (f y).1 ≠ t) →
      (x.toList.map f).find? (·.1 = t) = none := by
    intro f x t h
    cases x <;> simp [h]
  have hd : ∀ t, t ≠ 5 → t ≠ 6 → t ≠ 0x15 → t ≠ 0x16 → t ≠ 7 →
      (o.delta.toList.flatMap fun d => [(0x05, u32 d.base), (0x06, u32 d.size), (0x15, u32 d.inv),
        (0x16, u32 d.invSize)] ++ d.baseHash.toList.map fun h => (0x07, h)).find? (·.1 = t) = none := by
    intro t h1 h2 h3 h4 h5
    rw [List.find?_eq_none]
    intro x hx
    simp only [List.mem_flatMap, List.mem_append, List.mem_cons, List.not_mem_nil, or_false,
      List.mem_map] at hx
    obtain ⟨y, -, (hx | hx | hx | hx) | ⟨z, -, hx⟩⟩ := hx <;> (subst hx; simp; omega)
  have hsec : ∀ t, t ≠ 0x11 → t ≠ 0x12 → (o.secondary.toList.flatMap fun s => [(0x11, s.1), (0x12, o.hash s.2)]).find?
      (·.1 = t) = none := by
    intro t h1 h2
    cases o.secondary <;> simp [Ne.symm h1, Ne.symm h2]
  have hat : ∀ t, t ≠ 3 → t ≠ 0x13 → t ≠ 0x14 → o.algo.tag ≠ t := by
    intro t h1 h2 h3
    cases o.algo <;> simp [HashAlgo.tag] <;> omega
  unfold SignOpts.fields
  refine ⟨?_, ?_, ?_, ?_, ?_⟩
  · simp
  · simp only [List.find?_append]
    rw [ho (fun t => (0x02, t)) _ _ (by simp)]
    simp
  · simp only [List.find?_append]
    rw [ho (fun t => (0x02, t)) _ _ (by simp), hd _ (by omega) (by omega) (by omega) (by omega) (by omega), c10]
    simp
  · simp only [List.find?_append]
    rw [ho (fun t => (0x02, t)) _ _ (by simp), hd _ (by omega) (by omega) (by omega) (by omega) (by omega), c20,
      hsec _ (by omega) (by omega)]
    simp [hat 0x20 (by omega) (by omega) (by omega)]
  · intro c p hs
    constructor
    · simp only [List.find?_append]
      rw [ho (fun t => (0x02, t)) _ _ (by simp), hd _ (by omega) (by omega) (by omega) (by omega) (by omega), c12]
      simp [hs]
    · simp only [List.find?_append]
      rw [ho (fun t => (0x02, t)) _ _ (by simp), hd _ (by omega) (by omega) (by omega) (by omega) (by omega), c22,
        hsec _ (by omega) (by omega)]
      simp [hat 0x22 (by omega) (by omega) (by omega), hs]


theorem tag_not_before {o : SignOpts} {img : List Byte} (w : o.WF img) :
    o.algo.tag ∉ tagsOf (o.part1 ++ o.part2) := by
  have key : ∀ (is : List Item) t, (∀ p ∈ tagList is, p.1 ≠ t) → t ∉ tagsOf is := by
    intro is
    induction is with
    | nil => intro t _; simp [tagsOf]
    | cons i is ih =>
      intro t h
      cases i with
      | tag t' d =>
        have h1 := h (t', d) (by simp [tagList])
        have h2 := ih t (fun p hp => h p (by simp [tagList, hp]))
        simp only [tagsOf, List.mem_cons, not_or]
        exact ⟨Ne.symm h1, h2⟩
      | align8 => exact ih t h
      | align4 => exact ih t h
  have hall := tagList_items o img
  unfold SignOpts.items SignOpts.fields at hall
  rw [tagList_append] at hall
  refine key _ _ ?_
  intro p hp
  have hl : p ∈ tagList o.part1 ++ tagList o.part2 := by rwa [tagList_append] at hp
  have hmem : p.1 ∈ [0x01, 0x02, 0x04, 0x05, 0x06, 0x15, 0x16, 0x07, 0x10, 0x11, 0x12] ∨ 0x30 ≤ p.1 := by
    rw [List.mem_append] at hl
    rcases hl with hl | hl
    · unfold SignOpts.part1 at hl
      simp only [tagList_append, tagList_custom, List.mem_append] at hl
      rcases hl with ((((hl | hl) | hl) | hl) | hl) | hl
      · simp [tagList] at hl; simp [hl]
      · cases ho : o.timestamp <;> simp [ho, tagList] at hl
        simp [hl]
      · simp [tagList] at hl; simp [hl]
      · cases ho : o.delta with
        | none => simp [ho, tagList] at hl
        | some d =>
          cases hb : d.baseHash with
          | none =>
            simp [ho, hb, tagList] at hl
            rcases hl with hl | hl | hl | hl <;> simp [hl]
          | some h =>
            simp [ho, hb, tagList] at hl
            rcases hl with hl | hl | hl | hl | hl <;> simp [hl]
      · exact .inr (w.cust p hl).1
      · simp [tagList] at hl
    · unfold SignOpts.part2 at hl
      cases hs : o.secondary with
      | none => cases ha : o.algo <;> simp [ha, hs, tagList] at hl <;> simp [hl]
      | some s =>
        cases ha : o.algo <;> simp [ha, hs, tagList] at hl <;>
          (rcases hl with hl | hl | hl <;> simp [hl])
  simp only [List.mem_cons, List.not_mem_nil, or_false] at hmem
  cases o.algo <;> simp only [HashAlgo.tag] <;> omega

/-- **C15 (digest).** The digest field is found, and the bytes that the bootloader will hash are exactly
those that the tool has hashed. -/
theorem sign_digest_agrees (m : Mem) (o : SignOpts) (H : Nat) (img : List Byte) (w : o.WF img)
    (hH : H < 65544) (f : Flashed m o H img) (hne : ∀ l, o.hash l ≠ []) :
    le32 m 0 = MAGIC ∧ le32 m 4 = img.length ∧ slice m H img.length = img ∧
    ∃ off, findHdr m H o.algo.tag = .found off (o.digest img).length ∧
      signedMsg H m off img.length = o.hashed img ++ img ∧
      slice m off (o.digest img).length = o.hash (signedMsg H m off img.length) := by
  have hb := f.bytes
  have hl := f.len
  have hbase : HasBytes m (u32 MAGIC ++ u32 img.length) := hb.pre.pre.of_render
  have hlen : (render (u32 MAGIC ++ u32 img.length) (o.items img) ++ List.replicate
      (H - (render (u32 MAGIC ++ u32 img.length) (o.items img)).length) 0xFF#8).length = H := by
    rw [List.length_append, List.length_replicate]
    omega
  have hfw : slice m H img.length = img := by
    have : HasBytes m ((render (u32 MAGIC ++ u32 img.length) (o.items img) ++ List.replicate
      (H - (render (u32 MAGIC ++ u32 img.length) (o.items img)).length) 0xFF#8) ++ img ++ []) := by
      simpa using hb
    have := this.slice
    rwa [hlen] at this
  refine ⟨?_, ?_, hfw, ?_⟩
  · refine le32_u32 (by decide) ?_
    have : HasBytes m ([] ++ u32 MAGIC ++ u32 img.length) := hbase
    exact this.slice
  · refine le32_u32 w.img ?_
    have : HasBytes m (u32 MAGIC ++ u32 img.length ++ []) := by simpa using hbase
    exact this.slice
  · obtain ⟨h1, h2⟩ := find_field w hH f (a := o.part1 ++ o.part2) (t := o.algo.tag)
      (v := o.digest img) (b := o.part3 (o.digest img)) rfl (tag_not_before w) (hne _)
    have hmsg : signedMsg H m ((render (u32 MAGIC ++ u32 img.length) (o.part1 ++ o.part2)).length + 4)
        img.length = o.hashed img ++ img := by
      unfold signedMsg
      rw [hfw, Nat.add_sub_cancel]
      have : HasBytes m (render (u32 MAGIC ++ u32 img.length) (o.part1 ++ o.part2)) := by
        have := hb.pre.pre
        unfold SignOpts.items at this
        rw [render_append] at this
        exact this.of_render
      rw [holds_slice0 this]
      rfl
    refine ⟨_, h1, hmsg, ?_⟩
    rw [h2, hmsg]
    rfl

/-- The device is configured for the images of this signer: same header size, hash, authentication type;
the keystore contains the public keys with permission for the partition, and the signature
scheme accepts the signatures made by the tool. -/
structure Matches (k : ImgCfg) (o : SignOpts) (H : Nat) (img : List Byte) : Prop where
  hdr : k.H = H
  tag : k.shaTag = o.algo.tag
  hash : k.hash = o.hash
  dlen : ∀ l, (o.hash l).length = k.dlen
  auth : o.typ / 256 = k.authType
  hyb : k.hybrid = o.secondary.isSome
  key : ∃ s ∈ k.keys, s.pub = o.pubkey ∧ s.mask.getLsbD (o.typ % 16) = true ∧
    (o.sign (o.digest img)).length = k.sigSz ∧ k.verify s.pub (o.digest img) (o.sign (o.digest img)) = true
  key2 : ∀ c p, o.secondary = some (c, p) → ∃ s ∈ k.keys, s.pub = p ∧ s.mask.getLsbD (o.typ % 16) = true ∧
    (o.sign2 (o.digest img)).length = k.sigSz2 ∧
    k.verify2 s.pub (o.digest img) (o.sign2 (o.digest img)) = true

/-- **C15 (end to end).** Every image made by the signing tool without overflowing the header is accepted
by every bootloader that is configured for it - digest, key lookup, permission, both signatures
in hybrid mode - and the bootloader reads the version and type that the user asked for. -/
theorem signed_image_accepted (k : ImgCfg) (o : SignOpts) (H : Nat) (img : List Byte) (m : Mem)
    (hk : DistinctKeys k) (w : o.WF img) (hm : Matches k o H img) (hH : H < 65544)
    (f : Flashed m o H img) (hd0 : 0 < k.dlen) (hs0 : 0 < k.sigSz) (hs2 : k.hybrid = true → 0 < k.sigSz2)
    (hb : 0 < k.blk) (hfw : img.length + k.blk < 4294967296) (d : List Byte) :
    verifyImage k m img.length d = .ok ∧ blobVersion H m = o.version ∧ blobType H m = o.typ := by
  have hne : ∀ l, o.hash l ≠ [] := fun l h => by have := hm.dlen l; rw [h] at this; simp at this; omega
  obtain ⟨hmag, hsz, -, off, hfo, hmsg, hdig⟩ := sign_digest_agrees m o H img w hH f hne
  obtain ⟨q1, q4, q10, q20, q2⟩ := fields_find w (o.digest img)
  obtain ⟨o1, f1, v1⟩ := field_found w hH f q1 (by simp [u32])
  obtain ⟨o4, f4, v4⟩ := field_found w hH f q4 (by simp [u16])
  obtain ⟨o10, f10, v10⟩ := field_found w hH f q10 (hne _)
  obtain ⟨s, hs, hpub, hmask, hsl, hver⟩ := hm.key
  obtain ⟨o20, f20, v20⟩ := field_found w hH f q20 (by intro h; rw [h] at hsl; simp at hsl; omega)
  have ht : le16 m o4 = o.typ := le16_u16 w.typ v4
  have hv : le32 m o1 = o.version := le32_u32 w.ver v1
  have hkH := hm.hdr
  subst hkH
  refine ⟨?_, ?_, ?_⟩
  · rw [verified_iff k hk m img.length d hb hfw]
    refine ⟨off, ⟨?_, ?_⟩, o4, f4, ?_, ⟨s, hs, ?_, ⟨o10, ?_, ?_⟩, o20, _, f20, ?_⟩, ?_⟩
    · rw [hm.tag, hfo]
      exact congrArg _ (hm.dlen _)
    · rw [hm.hash, ← hdig]
      exact congrArg _ (hm.dlen _)
    · rw [ht]; exact hm.auth
    · rw [ht]; exact hmask
    · rw [← hm.dlen o.pubkey]; exact f10
    · rw [hpub, hm.hash, ← hm.dlen o.pubkey]; exact v10
    · rw [hm.hash, hmsg, ← hsl, v20]
      exact hver
    · intro hy
      rw [hm.hyb] at hy
      obtain ⟨⟨c, p⟩, hcp⟩ := Option.isSome_iff_exists.mp hy
      obtain ⟨s', hs', hpub', hmask', hsl', hver'⟩ := hm.key2 c p hcp
      have hs20 := hs2 (by rw [hm.hyb]; exact hy)
      obtain ⟨o12, f12, v12⟩ := field_found w hH f (q2 c p hcp).1 (hne _)
      obtain ⟨o22, f22, v22⟩ := field_found w hH f (q2 c p hcp).2 (by intro h; rw [h] at hsl'; simp at hsl'; omega)
      refine ⟨s', hs', by rw [ht]; exact hmask', ⟨o12, ?_, ?_⟩, o22, _, f22, ?_⟩
      · rw [← hm.dlen p]; exact f12
      · rw [hpub', hm.hash, ← hm.dlen p]; exact v12
      · rw [hm.hash, hmsg, ← hsl', v22]
        exact hver'
  · unfold blobVersion HDR_VERSION
    rw [if_neg (by simpa using hmag), f1]
    simp [u32_length, hv]
  · unfold blobType HDR_IMG_TYPE
    rw [if_neg (by simpa using hmag), f4]
    simp [u16_length, ht]

/-- **Finding (C15).** The length check of the lookup truncates the header size to 16 bits. With the
header size that the tool selects for long stateful signatures (twice the signature size,
`/repo/tools/keytools/sign.c:2143-2144`), e.g. 40000 bytes of signature in a header of 80000
bytes, the signature cannot be found in any image. -/
theorem large_header_signature_lost (m : Mem) (off : Nat) :
    findHdr m 80000 HDR_SIGNATURE ≠ .found off 40000 := by
  intro h
  obtain ⟨-, -, -, -, -, -, -, -, h9, -⟩ := (findHeader_iff m 0 _ _ _ _).mp h
  simp [hdrOff] at h9

/-- **Finding (C15).** The tool does not check that the fields fit into the header: two custom fields
of 200 bytes (accepted by the command line) overflow a header of 256 bytes. -/
theorem custom_tlv_overflow (o : SignOpts) (img : List Byte)
    (hc : o.custom = [(0x30, List.replicate 200 0#8), (0x31, List.replicate 200 0#8)]) :
    signTool o 256 img = .overflow := by
  unfold signTool
  dsimp only
  rw [if_pos]
  unfold SignOpts.items SignOpts.part1
  simp only [render_append]
  refine Nat.lt_of_lt_of_le ?_ (render_length_le _ _)
  refine Nat.lt_of_lt_of_le ?_ (render_length_le _ _)
  refine Nat.lt_of_lt_of_le ?_ (render_length_le _ _)
  have happ : ∀ hd, 400 ≤ (render hd (o.custom.flatMap fun c => [.align8, .tag c.1 c.2])).length := by
    intro hd
    rw [hc]
    simp only [List.flatMap_cons, List.flatMap_nil, List.cons_append, List.nil_append, render,
      List.foldl_cons, List.foldl_nil, Item.app, List.length_append, List.length_replicate,
      List.length_take, u16_length]
    omega
  exact Nat.lt_of_lt_of_le (by omega) (happ _)

/-! ### Non-vacuity -/

namespace SignDemo
open ImgDemo

/-- A hybrid image with time stamp, delta fields, custom fields (one of odd length) and policy. -/
def opts : SignOpts :=
  { version := 7, timestamp := some (List.replicate 8 0#8), typ := 0x03D1
    delta := some { base := 6, size := 100, inv := 200, invSize := 50, baseHash := some [1#8, 2#8] }
    custom := [(0x30, [1#8, 2#8, 3#8]), (0x31, [9#8])], algo := .sha384, pubkey := k1.pub
    secondary := some ([4#8, 0#8], k2.pub), hash := toyHash
    sign := fun d => k1.pub ++ d, sign2 := fun d => k2.pub ++ d, policy := some [1#8, 0#8, 0#8, 0#8, 5#8] }

def dev : ImgCfg :=
  { H := 256, blk := 16, shaTag := 0x14, dlen := 2, authType := 3, sigSz := 3, sigSz2 := 3, hybrid := true
    keys := [k1, k2], hash := toyHash
    verify := fun p d s => s == p ++ d, verify2 := fun p d s => s == p ++ d }

theorem opts_wf : opts.WF fwB where
  ver := by decide
  ts := by rintro t ht; cases ht; decide
  typ := by decide
  cust := by
    intro c hc
    simp only [opts, List.mem_cons, List.not_mem_nil, or_false] at hc
    rcases hc with rfl | rfl <;> (unfold CustomOK; decide)
  hlen := fun l => ⟨by simp [opts, toyHash], by simp [opts, toyHash]⟩
  cipher := by rintro c p h; cases h; rfl
  bhash := by rintro d h hd hh; cases hd; cases hh; decide
  sig := by decide +kernel
  sig2 := by decide +kernel
  pol := by rintro p hp; cases hp; decide
  img := by decide

theorem dev_matches : Matches dev opts 256 fwB where
  hdr := rfl
  tag := rfl
  hash := rfl
  dlen := fun _ => rfl
  auth := by decide
  hyb := rfl
  key := ⟨k1, by simp [dev], rfl, by decide, by decide +kernel, by decide +kernel⟩
  key2 := by
    rintro c p h
    cases h
    exact ⟨k2, by simp [dev], rfl, by decide, by decide +kernel, by decide +kernel⟩

theorem dev_keys : DistinctKeys dev := by
  refine ⟨by decide, ?_⟩
  intro s hs s' hs'
  simp only [dev, List.mem_cons, List.not_mem_nil, or_false] at hs hs'
  rcases hs with rfl | rfl <;> rcases hs' with rfl | rfl <;> simp [dev, k1, k2, toyHash]

def outFile : List Byte := match signTool opts 256 fwB with | .file l => l | .overflow => []

theorem outFile_eq : signTool opts 256 fwB = .file outFile := by
  unfold outFile
  cases h : signTool opts 256 fwB with
  | file l => rfl
  | overflow =>
    exfalso
    unfold signTool at h
    dsimp only at h
    split at h
    · next hc => exact absurd hc (by decide +kernel)
    · simp at h

theorem outFlashed : Flashed (ofList outFile) opts 256 fwB :=
  ⟨outFile, outFile_eq, fun i b h => by simp [ofList, h]⟩

example : verifyImage dev (ofList outFile) fwB.length [] = .ok ∧
    blobVersion 256 (ofList outFile) = 7 ∧ blobType 256 (ofList outFile) = 0x03D1 :=
  signed_image_accepted dev opts 256 fwB _ dev_keys opts_wf dev_matches (by decide) outFlashed (by decide)
    (by decide) (fun _ => by decide) (by decide) (by decide) []

/-- The first custom field of odd length and the one behind it are both found. -/
example : findHdr (ofList outFile) 256 0x30 = .found 88 3 ∧ findHdr (ofList outFile) 256 0x31 = .found 96 1 := by
  decide +kernel

end SignDemo

end Verif
