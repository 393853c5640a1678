import Verif.ImageThms

/-!
# The signing tool: `/repo/tools/keytools/sign.c`

C15. `make_header_ex` as a sequence of `header_append_tag` and `ALIGN_*` operations on the header
buffer. The buffer is pre-filled with `0xFF` (line 1076), so the alignment macros, which only advance
the index, leave `0xFF` bytes behind. Hash and signature functions are parameters.
-/

namespace Verif

/-- Little-endian representation (the tool is run on a little-endian host), `header_append_u16`,
`/repo/tools/keytools/sign.c:217-221`. -/
def u16 (v : Nat) : List Byte := [BitVec.ofNat 8 v, BitVec.ofNat 8 (v / 256)]

/-- `header_append_u32`, `/repo/tools/keytools/sign.c:212-216`. -/
def u32 (v : Nat) : List Byte :=
  [BitVec.ofNat 8 v, BitVec.ofNat 8 (v / 256), BitVec.ofNat 8 (v / 65536), BitVec.ofNat 8 (v / 16777216)]

/-- One operation on the header buffer: `header_append_tag` (`/repo/tools/keytools/sign.c:222-229`),
`ALIGN_8`, `ALIGN_4` (1043-1044). -/
inductive Item where
  | tag (t : Nat) (data : List Byte)
  | align8
  | align4

/-- Effect of an operation; the list is `header[0..header_idx)`. The length parameter of
`header_append_tag` is a `uint16_t`. -/
def Item.app (hd : List Byte) : Item → List Byte
  | .tag t data => hd ++ u16 t ++ u16 (data.length % 65536) ++ data.take (data.length % 65536)
  | .align8 => hd ++ List.replicate ((12 - hd.length % 8) % 8) 0xFF#8
  | .align4 => hd ++ List.replicate ((4 - hd.length % 4) % 4) 0xFF#8

def render (hd : List Byte) (is : List Item) : List Byte := is.foldl Item.app hd

/-- Hash algorithm selected by the command line; the value is the tag of the digest
(`/repo/tools/keytools/sign.c:184-186`). -/
inductive HashAlgo where
  | sha256
  | sha384
  | sha3

def HashAlgo.tag : HashAlgo → Nat
  | .sha256 => 0x03
  | .sha384 => 0x14
  | .sha3 => 0x13

/-- Parameters of a delta image (`/repo/tools/keytools/sign.c:1117-1163`). -/
structure DeltaHdr where
  base : Nat
  size : Nat
  inv : Nat
  invSize : Nat
  /-- absent with `--no-base-sha` -/
  baseHash : Option (List Byte)

/-- Input of `make_header_ex` (command line, files, keys). -/
structure SignOpts where
  version : Nat
  /-- `st_ctime`, absent with `--no-ts` -/
  timestamp : Option (List Byte)
  /-- `image_type`, 1110-1113 -/
  typ : Nat
  delta : Option DeltaHdr
  custom : List (Nat × List Byte)
  algo : HashAlgo
  pubkey : List Byte
  /-- secondary cipher (two bytes) and public key, in hybrid mode -/
  secondary : Option (List Byte × List Byte)
  hash : List Byte → List Byte
  /-- primary signature of a digest -/
  sign : List Byte → List Byte
  /-- secondary signature of a digest -/
  sign2 : List Byte → List Byte
  /-- PCR mask and policy signature -/
  policy : Option (List Byte)

/-- Fields in front of the public key hash, `/repo/tools/keytools/sign.c:1096-1191`. -/
def SignOpts.part1 (o : SignOpts) : List Item :=
  [.tag 0x01 (u32 o.version), .align8] ++
  (match o.timestamp with | some ts => [.tag 0x02 ts] | none => []) ++
  [.tag 0x04 (u16 o.typ)] ++
  (match o.delta with
   | some d => [.align4, .tag 0x05 (u32 d.base), .tag 0x06 (u32 d.size), .align4,
       .tag 0x15 (u32 d.inv), .tag 0x16 (u32 d.invSize)] ++
       (match d.baseHash with | some h => [.align8, .tag 0x07 h] | none => [])
   | none => []) ++
  (o.custom.flatMap fun c => [.align8, .tag c.1 c.2]) ++ [.align8]

/-- Public key hashes, `/repo/tools/keytools/sign.c:1194-1235` (SHA-256), 1264-1302 (SHA-384),
1332-1372 (SHA-3). -/
def SignOpts.part2 (o : SignOpts) : List Item :=
  match o.algo with
  | .sha256 => [.tag 0x10 (o.hash o.pubkey), .align8] ++
      (match o.secondary with
       | some (c, p) => [.tag 0x11 c, .align8, .tag 0x12 (o.hash p)] | none => []) ++ [.align8, .align8]
  | .sha384 => [.align8, .align8, .tag 0x10 (o.hash o.pubkey), .align8] ++
      (match o.secondary with
       | some (c, p) => [.tag 0x11 c, .tag 0x12 (o.hash p), .align8] | none => [])
  | .sha3 => [.tag 0x10 (o.hash o.pubkey), .align8] ++
      (match o.secondary with
       | some (c, p) => [.align8, .tag 0x11 c, .tag 0x12 (o.hash p), .align8] | none => []) ++ [.align8]

/-- Signatures, `/repo/tools/keytools/sign.c:1553-1575`. -/
def SignOpts.part3 (o : SignOpts) (digest : List Byte) : List Item :=
  [.align8, .tag 0x20 (o.sign digest)] ++
  (match o.secondary with | some _ => [.align8, .tag 0x22 (o.sign2 digest)] | none => []) ++
  (match o.policy with | some p => [.align8, .tag 0x21 p] | none => [])

/-- Header in front of the digest; this is what is hashed, together with the image
(`/repo/tools/keytools/sign.c:1236-1256`). -/
def SignOpts.hashed (o : SignOpts) (img : List Byte) : List Byte :=
  render (u32 MAGIC ++ u32 img.length) (o.part1 ++ o.part2)

/-- The digest of the image. -/
def SignOpts.digest (o : SignOpts) (img : List Byte) : List Byte := o.hash (o.hashed img ++ img)

/-- All operations of `make_header_ex`, `/repo/tools/keytools/sign.c:1087-1576`. -/
def SignOpts.items (o : SignOpts) (img : List Byte) : List Item :=
  (o.part1 ++ o.part2) ++ .tag o.algo.tag (o.digest img) :: o.part3 (o.digest img)

/-- Outcome of the tool: the output file, or a write behind the end of the header buffer, which has
`H` (`CMD.header_sz`) bytes and is never checked (heap corruption). -/
inductive SignOut where
  | file (l : List Byte)
  | overflow

/-- `make_header_ex`, `/repo/tools/keytools/sign.c:1046-1610`: header, padding (1578-1581), image. -/
def signTool (o : SignOpts) (H : Nat) (img : List Byte) : SignOut :=
  let hd := render (u32 MAGIC ++ u32 img.length) (o.items img)
  if hd.length > H then .overflow
  else .file (hd ++ List.replicate (H - hd.length) 0xFF#8 ++ img)

/-- Checks of custom TLVs on the command line, `/repo/tools/keytools/sign.c:2491-2502,2524-2535`. -/
def CustomOK (c : Nat × List Byte) : Prop :=
  0x30 ≤ c.1 ∧ c.1 < 65536 ∧ c.1 / 256 ≠ 0xFF ∧ c.1 % 256 ≠ 0xFF ∧ c.2.length ≤ 255

/-- Input ranges: 32-bit and 16-bit values, 8-byte time stamp, sizes below `2 ^ 16`. -/
structure SignOpts.WF (o : SignOpts) (img : List Byte) : Prop where
  ver : o.version < 4294967296
  ts : ∀ t, o.timestamp = some t → t.length = 8
  typ : o.typ < 65536
  cust : ∀ c ∈ o.custom, CustomOK c
  hlen : ∀ l, (o.hash l).length % 2 = 0 ∧ (o.hash l).length < 65536
  cipher : ∀ c p, o.secondary = some (c, p) → c.length = 2
  bhash : ∀ d h, o.delta = some d → d.baseHash = some h → h.length < 65536
  sig : (o.sign (o.digest img)).length < 65536
  sig2 : (o.sign2 (o.digest img)).length < 65536
  pol : ∀ p, o.policy = some p → p.length < 65536
  img : img.length < 4294967296

/-! ## Rendering and the header walk -/

theorem u16_length (v : Nat) : (u16 v).length = 2 := rfl
theorem u32_length (v : Nat) : (u32 v).length = 4 := rfl

theorem app_prefix (hd : List Byte) (i : Item) : ∃ s, i.app hd = hd ++ s := by
  cases i with
  | tag t d => exact ⟨u16 t ++ u16 (d.length % 65536) ++ d.take (d.length % 65536), by simp [Item.app]⟩
  | align8 => exact ⟨_, rfl⟩
  | align4 => exact ⟨_, rfl⟩

theorem render_prefix (is : List Item) : ∀ hd, ∃ s, render hd is = hd ++ s := by
  induction is with
  | nil => intro hd; exact ⟨[], by simp [render]⟩
  | cons i is ih =>
    intro hd
    obtain ⟨s, hs⟩ := app_prefix hd i
    obtain ⟨s', hs'⟩ := ih (i.app hd)
    refine ⟨s ++ s', ?_⟩
    show render (i.app hd) is = _
    rw [hs', hs, List.append_assoc]

theorem render_append (hd : List Byte) (a b : List Item) :
    render hd (a ++ b) = render (render hd a) b := by
  simp [render]

theorem render_length_le (hd : List Byte) (is : List Item) : hd.length ≤ (render hd is).length := by
  obtain ⟨s, hs⟩ := render_prefix is hd
  rw [hs]; simp

/-- Memory `m` starts with the bytes `l`. -/
def HasBytes (m : Mem) (l : List Byte) : Prop := ∀ i b, l[i]? = some b → m i = b

theorem HasBytes.pre {m : Mem} {a b : List Byte} (h : HasBytes m (a ++ b)) : HasBytes m a := by
  intro i x hi
  refine h i x ?_
  rw [List.getElem?_append_left]
  · exact hi
  · exact (List.getElem?_eq_some_iff.mp hi).1

theorem HasBytes.of_render {m : Mem} {hd : List Byte} {is : List Item} (h : HasBytes m (render hd is)) :
    HasBytes m hd := by
  obtain ⟨s, hs⟩ := render_prefix is hd
  rw [hs] at h
  exact h.pre

theorem HasBytes.get {m : Mem} {a b : List Byte} (h : HasBytes m (a ++ b)) (i : Nat) (x : Byte)
    (hx : b[i]? = some x) : m (a.length + i) = x := by
  refine h _ _ ?_
  rw [List.getElem?_append_right (by omega), Nat.add_sub_cancel_left, hx]

theorem HasBytes.slice {m : Mem} : ∀ {b a c : List Byte}, HasBytes m (a ++ b ++ c) →
    Verif.slice m a.length b.length = b := by
  intro b
  induction b with
  | nil => intro a c _; rfl
  | cons x b ih =>
    intro a c h
    have h' : HasBytes m ((a ++ [x]) ++ b ++ c) := by simpa using h
    have := ih h'
    simp only [List.length_append, List.length_singleton] at this
    simp only [List.length_cons, Verif.slice]
    rw [this]
    congr 1
    refine h _ _ ?_
    rw [List.append_assoc, List.getElem?_append_right (by omega), Nat.sub_self]
    rfl

theorem holds_slice0 {m : Mem} {l : List Byte} (h : HasBytes m l) : slice m 0 l.length = l := by
  have : HasBytes m ([] ++ l ++ []) := by simpa using h
  exact this.slice

/-- Tags that the lookup can see. -/
def TagOK (t : Nat) : Prop := 0 < t ∧ t < 65536 ∧ t % 256 ≠ 0xFF

/-- Every tag is visible, short enough and at an even offset; `e`: the offset so far is known to be
even. -/
def ItemsOK : Bool → List Item → Prop
  | _, [] => True
  | _, .align8 :: r => ItemsOK true r
  | _, .align4 :: r => ItemsOK true r
  | e, .tag t d :: r => e = true ∧ TagOK t ∧ d.length < 65536 ∧ ItemsOK (d.length % 2 == 0) r

/-- The tags of a list of operations. -/
def tagsOf : List Item → List Nat
  | [] => []
  | .tag t _ :: r => t :: tagsOf r
  | _ :: r => tagsOf r

theorem walk_pad {m : Mem} {H type p q : Nat} (hq : q + 4 < H)
    (hm : ∀ x, p ≤ x → x < q → m x = 0xFF#8) : ∀ n, p + n = q → ∀ r, Walk m 0 H type q r →
    Walk m 0 H type p r := by
  intro n
  induction n generalizing p with
  | zero => intro h r hw; rw [Nat.add_zero] at h; subst h; exact hw
  | succ n ih =>
    intro h r hw
    refine .pad (by omega) ?_ (.inl (hm p (by omega) (by omega)))
      (ih (fun x h1 h2 => hm x (by omega) h2) (by omega) r hw)
    unfold le16
    rw [hm p (by omega) (by omega)]
    have : (0xFF#8 : Byte).toNat = 255 := rfl
    omega

theorem tagBytes {m : Mem} {hd s : List Byte} {t : Nat} {d : List Byte} (ht : TagOK t)
    (hd' : d.length < 65536) (h : HasBytes m ((Item.tag t d).app hd ++ s)) :
    le16 m hd.length = t ∧ m hd.length ≠ 0xFF#8 ∧ le16 m (hd.length + 2) = d.length ∧
      slice m (hd.length + 4) d.length = d := by
  have he : (Item.tag t d).app hd ++ s = hd ++ (u16 t ++ (u16 d.length ++ (d ++ s))) := by
    simp [Item.app, Nat.mod_eq_of_lt hd']
  rw [he] at h
  have g0 := h.get 0 (BitVec.ofNat 8 t) rfl
  have g1 := h.get 1 (BitVec.ofNat 8 (t / 256)) rfl
  have g2 := h.get 2 (BitVec.ofNat 8 d.length) rfl
  have g3 := h.get 3 (BitVec.ofNat 8 (d.length / 256)) rfl
  have h16 : ∀ v, v < 65536 → (BitVec.ofNat 8 v).toNat + 256 * (BitVec.ofNat 8 (v / 256)).toNat = v := by
    intro v hv
    simp only [BitVec.toNat_ofNat]
    omega
  refine ⟨?_, ?_, ?_, ?_⟩
  · unfold le16
    rw [Nat.add_zero] at g0
    rw [g0, g1]
    exact h16 t ht.2.1
  · rw [Nat.add_zero] at g0
    rw [g0]
    intro hc
    have := congrArg BitVec.toNat hc
    simp only [BitVec.toNat_ofNat] at this
    exact ht.2.2 (by omega)
  · show (m (hd.length + 2)).toNat + 256 * (m (hd.length + 3)).toNat = _
    rw [g2, g3]
    exact h16 _ hd'
  · have : HasBytes m ((hd ++ u16 t ++ u16 d.length) ++ d ++ s) := by simpa using h
    have := this.slice
    simpa [u16_length] using this

/-- Walking over operations that do not contain the tag. -/
theorem walk_items {m : Mem} {H type : Nat} (hH : H < 65544) (h8 : 8 ≤ H) : ∀ (is : List Item) (e : Bool)
    (hd : List Byte), ItemsOK e is → (e = true → hd.length % 2 = 0) → 8 ≤ hd.length →
    HasBytes m (render hd is) → (render hd is).length + 4 < H → type ∉ tagsOf is →
    Walk m 0 H type hd.length (render hd is).length := by
  intro is
  induction is with
  | nil => intro e hd _ _ _ _ _ _; exact .here _
  | cons i is ih =>
    intro e hd hok he h8' hm hl hnt
    have hl' : (i.app hd).length ≤ (render (i.app hd) is).length := render_length_le _ _
    have hm' : HasBytes m (render (i.app hd) is) := hm
    have hl2 : (render (i.app hd) is).length + 4 < H := hl
    show Walk m 0 H type hd.length (render (i.app hd) is).length
    have hpad : ∀ n, i.app hd = hd ++ List.replicate n 0xFF#8 →
        ∀ r, Walk m 0 H type (i.app hd).length r → Walk m 0 H type hd.length r := by
      intro n hn r hw
      refine walk_pad (q := (i.app hd).length) (by omega) ?_ n (by rw [hn]; simp) r hw
      intro x h1 h2
      have := hm'.of_render
      rw [hn] at this
      have := this.get (x - hd.length) 0xFF#8 (by
        rw [hn] at h2
        simp only [List.length_append, List.length_replicate] at h2
        rw [List.getElem?_replicate_of_lt (by omega)])
      rwa [show hd.length + (x - hd.length) = x by omega] at this
    cases i with
    | tag t d =>
      obtain ⟨rfl, ht, hdl, hr⟩ := hok
      simp only [tagsOf, List.mem_cons, not_or] at hnt
      obtain ⟨s, hs⟩ := render_prefix is ((Item.tag t d).app hd)
      have hm2 := hm'
      rw [hs] at hm2
      obtain ⟨g1, g2, g3, -⟩ := tagBytes ht hdl hm2
      have hlen : ((Item.tag t d).app hd).length = hd.length + 4 + d.length := by
        simp [Item.app, u16_length, Nat.mod_eq_of_lt hdl]
        omega
      have hev := he rfl
      refine .tag (by omega) (by rw [g1]; have := ht.1; omega) g2 (by omega) (by rw [g1]; exact Ne.symm hnt.1)
        (by rw [g3]; unfold hdrOff; omega) (by rw [g3]; omega) ?_
      rw [g3, ← hlen]
      refine ih _ _ hr ?_ (by omega) hm' hl2 hnt.2
      intro he'
      rw [hlen]
      have : d.length % 2 = 0 := by simpa using he'
      omega
    | align8 =>
      refine hpad _ rfl _ (ih true _ hok ?_ (by simp [Item.app]; omega) hm' hl2 hnt)
      intro _
      simp only [Item.app, List.length_append, List.length_replicate]
      omega
    | align4 =>
      refine hpad _ rfl _ (ih true _ hok ?_ (by simp [Item.app]; omega) hm' hl2 hnt)
      intro _
      simp only [Item.app, List.length_append, List.length_replicate]
      omega

theorem itemsOK_append {e : Bool} {a b : List Item} (h : ItemsOK e (a ++ b)) : ItemsOK e a := by
  induction a generalizing e with
  | nil => trivial
  | cons i a ih =>
    cases i with
    | tag t d => exact ⟨h.1, h.2.1, h.2.2.1, ih h.2.2.2⟩
    | align8 => exact ih (e := true) h
    | align4 => exact ih (e := true) h

theorem itemsOK_tag {e : Bool} {a b : List Item} {t : Nat} {d : List Byte} {hd : List Byte}
    (h : ItemsOK e (a ++ .tag t d :: b)) (he : e = true → hd.length % 2 = 0) :
    TagOK t ∧ d.length < 65536 ∧ (render hd a).length % 2 = 0 := by
  induction a generalizing e hd with
  | nil =>
    obtain ⟨rfl, ht, hl, -⟩ := h
    exact ⟨ht, hl, he rfl⟩
  | cons i a ih =>
    cases i with
    | tag t' d' =>
      obtain ⟨rfl, -, hl, hr⟩ := h
      refine ih (hd := (Item.tag t' d').app hd) hr ?_
      intro he'
      have h2 : d'.length % 2 = 0 := by simpa using he'
      have := he rfl
      simp [Item.app, u16_length, Nat.mod_eq_of_lt hl]
      omega
    | align8 =>
      refine ih (e := true) (hd := Item.align8.app hd) h ?_
      intro _
      simp only [Item.app, List.length_append, List.length_replicate]
      omega
    | align4 =>
      refine ih (e := true) (hd := Item.align4.app hd) h ?_
      intro _
      simp only [Item.app, List.length_append, List.length_replicate]
      omega

/-- **Lookup in a rendered header.** The first occurrence of a tag is found, at its offset and with
its value. (A field of length 0 at the very end of the header is not visible.) -/
theorem find_rendered {m : Mem} {H : Nat} (hH : H < 65544) {hd : List Byte} (h8 : hd.length = 8)
    {a b : List Item} {t : Nat} {d : List Byte} (hok : ItemsOK true (a ++ .tag t d :: b))
    (hm : HasBytes m (render hd (a ++ .tag t d :: b)))
    (hl : (render hd (a ++ .tag t d :: b)).length ≤ H) (hnt : t ∉ tagsOf a)
    (hvis : 0 < d.length ∨ (render hd a).length + 4 < H) :
    findHdr m H t = .found ((render hd a).length + 4) d.length ∧
      slice m ((render hd a).length + 4) d.length = d := by
  obtain ⟨ht, hdl, hev⟩ := itemsOK_tag (hd := hd) hok (fun _ => by omega)
  rw [render_append] at hm hl
  have hm0 := hm.of_render
  obtain ⟨s, hs⟩ := render_prefix b ((Item.tag t d).app (render hd a))
  have hm2 : HasBytes m ((Item.tag t d).app (render hd a) ++ s) := by rw [← hs]; exact hm
  obtain ⟨g1, g2, g3, g4⟩ := tagBytes ht hdl hm2
  have hlen : ((Item.tag t d).app (render hd a)).length = (render hd a).length + 4 + d.length := by
    simp [Item.app, u16_length, Nat.mod_eq_of_lt hdl]
    omega
  have hl' : (render hd a).length + 4 + d.length ≤ H := by
    rw [← hlen]
    exact Nat.le_trans (render_length_le _ b) hl
  have h8' := render_length_le hd a
  refine ⟨?_, g4⟩
  refine (findHeader_iff m 0 H t _ _).mpr ⟨by omega, by omega, ?_, ?_⟩
  · rw [Nat.add_sub_cancel]
    have := walk_items (type := t) hH (by omega) a true hd (itemsOK_append hok) (fun _ => by omega)
      (by omega) hm0 (by omega) hnt
    rw [h8] at this
    exact this
  · rw [Nat.add_sub_cancel, show (render hd a).length + 4 - 2 = (render hd a).length + 2 by omega]
    exact ⟨g1, by have := ht.1; omega, g2, by omega, g3, by unfold hdrOff; omega, hl', by unfold hdrOff; omega⟩

end Verif
