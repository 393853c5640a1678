import Verif.Header

/-!
# Header lookup: memory safety, termination, locality (C13, C14)
-/

namespace Verif

/-! ## Helper lemmas -/

theorem findLoop_no_oob {rd : Rd} {base H type : Nat} (hrd : ∀ a, a < H → (rd a).isSome) :
    ∀ n p, findLoop rd base H type n p ≠ .oob := by
  intro n
  induction n with
  | zero => intro p h; simp [findLoop] at h
  | succ n ih =>
    intro p
    unfold findLoop
    split
    · next hlt =>
      obtain ⟨b0, h0⟩ := Option.isSome_iff_exists.mp (hrd p (by omega))
      obtain ⟨b1, h1⟩ := Option.isSome_iff_exists.mp (hrd (p+1) (by omega))
      obtain ⟨b2, h2⟩ := Option.isSome_iff_exists.mp (hrd (p+2) (by omega))
      obtain ⟨b3, h3⟩ := Option.isSome_iff_exists.mp (hrd (p+3) (by omega))
      simp only [h0, h1, h2, h3]
      repeat' split
      all_goals first | exact ih _ | simp
    · simp

theorem findLoop_no_fuel {rd : Rd} {base H type : Nat} :
    ∀ n p, 0 < n → H < n + p → findLoop rd base H type n p ≠ .fuel := by
  intro n
  induction n with
  | zero => intro p h; omega
  | succ n ih =>
    intro p _ hp
    unfold findLoop
    split
    · next hlt =>
      split
      · dsimp only
        split
        · simp
        · split
          · exact ih _ (by omega) (by omega)
          · split
            · repeat' split
              all_goals first | exact ih _ (by omega) (by omega) | simp
            · simp
      · simp
    · simp

theorem findLoop_found {rd : Rd} {base H type off len : Nat} :
    ∀ n p, findLoop rd base H type n p = .found off len →
      p + 4 ≤ off ∧ off + len ≤ H ∧ len < 65536 ∧
      (∃ b0 b1 b2 b3, rd (off - 4) = some b0 ∧ rd (off - 3) = some b1 ∧ rd (off - 2) = some b2 ∧
        rd (off - 1) = some b3 ∧ b0.toNat + 256 * b1.toNat = type ∧
        b2.toNat + 256 * b3.toNat = len) := by
  intro n
  induction n with
  | zero => intro p h; simp [findLoop] at h
  | succ n ih =>
    intro p h
    unfold findLoop at h
    split at h
    · split at h
      · next b0 b1 h0 h1 =>
        simp only at h
        split at h
        · simp at h
        · split at h
          · obtain ⟨h2, h3⟩ := ih _ h
            exact ⟨by omega, h3⟩
          · split at h
            · next b2 b3 h2 h3 =>
              split at h
              · simp at h
              · split at h
                · simp at h
                · split at h
                  · simp only [Find.found.injEq] at h
                    obtain ⟨rfl, rfl⟩ := h
                    have := b2.isLt
                    have := b3.isLt
                    exact ⟨by omega, by omega, by omega, b0, b1, b2, b3, by simpa using h0,
                      by simpa using h1, by simpa using h2, by simpa using h3, by assumption, rfl⟩
                  · obtain ⟨h2, h3⟩ := ih _ h
                    exact ⟨by omega, h3⟩
            · simp at h
      · simp at h
    · simp at h

/-- Locality of a successful walk: only bytes before the end of the found field matter. -/
theorem findLoop_local {rd rd' : Rd} {base H type off len : Nat} :
    ∀ n p, findLoop rd base H type n p = .found off len →
      (∀ a, p ≤ a → a < off → rd' a = rd a) →
      findLoop rd' base H type n p = .found off len := by
  intro n
  induction n with
  | zero => intro p h; simp [findLoop] at h
  | succ n ih =>
    intro p h hag
    have hb := (findLoop_found _ _ h).1
    unfold findLoop at h ⊢
    split at h
    · next hlt =>
      rw [if_pos hlt, hag p (by omega) (by omega), hag (p+1) (by omega) (by omega),
        hag (p+2) (by omega) (by omega), hag (p+3) (by omega) (by omega)]
      split at h
      · next b0 b1 h0 h1 =>
        simp only at h ⊢
        split at h
        · simp at h
        · next hz =>
          rw [if_neg hz]
          split at h
          · next hpad => rw [if_pos hpad]; exact ih _ h (fun a h1 h2 => hag a (by omega) h2)
          · next hpad =>
            rw [if_neg hpad]
            split at h
            · next b2 b3 h2 h3 =>
              split at h
              · simp at h
              · next hl =>
                rw [if_neg hl]
                split at h
                · simp at h
                · next hm =>
                  rw [if_neg hm]
                  split at h
                  · next ht => rw [if_pos ht]; exact h
                  · next ht =>
                    rw [if_neg ht]; exact ih _ h (fun a h1 h2 => hag a (by omega) h2)
            · simp at h
      · simp at h
    · simp at h

theorem le16_two (m : Mem) (p : Nat) :
    le16 m (p + 2) = (m (p + 2)).toNat + 256 * (m (p + 3)).toNat := rfl

theorem findLoop_complete {m : Mem} {base H type q : Nat} :
    ∀ p, Walk m base H type p q → q + 4 < H → le16 m q = type → type ≠ 0 → m q ≠ 0xFF#8 →
      (base + q) % 2 = 0 → 4 + le16 m (q + 2) ≤ (H - hdrOff) % 65536 →
      q + 4 + le16 m (q + 2) ≤ H → ∀ n, H < n + p →
      findLoop (hdrBuf m H) base H type n p = .found (q + 4) (le16 m (q + 2)) := by
  intro p hw
  have rds : ∀ p, p + 4 < H → hdrBuf m H p = some (m p) ∧ hdrBuf m H (p+1) = some (m (p+1)) ∧
      hdrBuf m H (p+2) = some (m (p+2)) ∧ hdrBuf m H (p+3) = some (m (p+3)) := by
    intro p hp
    unfold hdrBuf
    rw [if_pos (by omega), if_pos (by omega), if_pos (by omega), if_pos (by omega)]
    exact ⟨rfl, rfl, rfl, rfl⟩
  induction hw with
  | here p =>
    intro hq ht hz hff hpar hl hm n hn
    obtain ⟨n, rfl⟩ : ∃ k, n = k + 1 := ⟨n - 1, by omega⟩
    obtain ⟨r0, r1, r2, r3⟩ := rds p hq
    unfold findLoop
    rw [if_pos hq, r0, r1, r2, r3]
    rw [le16_two] at hl hm ⊢
    unfold le16 at ht
    dsimp only
    rw [if_neg (by omega), if_neg (by simp only [not_or]; exact ⟨hff, by omega⟩),
      if_neg (by omega), if_neg (by omega), if_pos ht]
  | @pad p q hp hz0 hpad _ ih =>
    intro hq ht hz hff hpar hl hm n hn
    obtain ⟨n, rfl⟩ : ∃ k, n = k + 1 := ⟨n - 1, by omega⟩
    obtain ⟨r0, r1, r2, r3⟩ := rds p hp
    unfold findLoop
    rw [if_pos hp, r0, r1]
    dsimp only
    rw [if_neg (by unfold le16 at hz0; exact hz0), if_pos hpad]
    exact ih hq ht hz hff hpar hl hm n (by omega)
  | @tag p q hp hz0 hnf hpp hty hl0 hm0 _ ih =>
    intro hq ht hz hff hpar hl hm n hn
    obtain ⟨n, rfl⟩ : ∃ k, n = k + 1 := ⟨n - 1, by omega⟩
    obtain ⟨r0, r1, r2, r3⟩ := rds p hp
    unfold findLoop
    rw [if_pos hp, r0, r1, r2, r3]
    dsimp only
    rw [if_neg (by unfold le16 at hz0; exact hz0),
      if_neg (by simp only [not_or]; exact ⟨hnf, by omega⟩),
      if_neg (by rw [le16_two] at hl0; omega), if_neg (by rw [le16_two] at hm0; omega),
      if_neg (by unfold le16 at hty; exact hty)]
    exact ih hq ht hz hff hpar hl hm n (by omega)

theorem findLoop_sound {m : Mem} {base H type off len : Nat} :
    ∀ n p, findLoop (hdrBuf m H) base H type n p = .found off len →
      4 ≤ off ∧ off < H ∧ Walk m base H type p (off - 4) ∧ le16 m (off - 4) = type ∧ type ≠ 0 ∧
      m (off - 4) ≠ 0xFF#8 ∧ (base + (off - 4)) % 2 = 0 ∧ le16 m (off - 2) = len ∧
      4 + len ≤ (H - hdrOff) % 65536 ∧ off + len ≤ H := by
  intro n
  induction n with
  | zero => intro p h; simp [findLoop] at h
  | succ n ih =>
    intro p h
    unfold findLoop at h
    split at h
    · next hp =>
      have r0 : hdrBuf m H p = some (m p) := by unfold hdrBuf; rw [if_pos (by omega)]
      have r1 : hdrBuf m H (p+1) = some (m (p+1)) := by unfold hdrBuf; rw [if_pos (by omega)]
      have r2 : hdrBuf m H (p+2) = some (m (p+2)) := by unfold hdrBuf; rw [if_pos (by omega)]
      have r3 : hdrBuf m H (p+3) = some (m (p+3)) := by unfold hdrBuf; rw [if_pos (by omega)]
      rw [r0, r1, r2, r3] at h
      dsimp only at h
      split at h
      · simp at h
      · next hz =>
        split at h
        · next hpad =>
          obtain ⟨a, b, w, rest⟩ := ih _ h
          exact ⟨a, b, Walk.pad hp hz hpad w, rest⟩
        · next hpad =>
          simp only [not_or, Decidable.not_not] at hpad
          split at h
          · simp at h
          · next hl =>
            split at h
            · simp at h
            · next hm =>
              split at h
              · next ht =>
                simp only [Find.found.injEq] at h
                obtain ⟨rfl, rfl⟩ := h
                rw [show p + 4 - 4 = p by omega, show p + 4 - 2 = p + 2 by omega]
                exact ⟨by omega, by omega, Walk.here p, ht, by omega, hpad.1, hpad.2, rfl,
                  by omega, by omega⟩
              · next ht =>
                obtain ⟨a, b, w, rest⟩ := ih _ h
                refine ⟨a, b, Walk.tag hp hz hpad.1 hpad.2 ht ?_ ?_ w, rest⟩
                · unfold le16; rw [show p + 2 + 1 = p + 3 by omega]; omega
                · unfold le16; rw [show p + 2 + 1 = p + 3 by omega]; omega
    · simp at h

theorem hdrBuf_isSome (m : Mem) (H a : Nat) (h : a < H) : (hdrBuf m H a).isSome := by
  simp [hdrBuf, h]

/-! ## Property theorems -/

/-- **C13** (totality and memory safety): for arbitrary header bytes, tag and header size, the
lookup terminates and performs no read outside of the header. -/
theorem findHeader_total (m : Mem) (base H type : Nat) :
    findHeader (hdrBuf m H) base H type ≠ .oob ∧ findHeader (hdrBuf m H) base H type ≠ .fuel := by
  unfold findHeader
  split
  · simp
  · exact ⟨findLoop_no_oob (hdrBuf_isSome m H) _ _, findLoop_no_fuel _ _ (by omega) (by omega)⟩

/-- **C13** (result in bounds): a returned field lies inside the header, after the fixed fields,
its length is the 16-bit size stored in front of it, and its stored type is the requested one. -/
theorem findHeader_in_bounds (m : Mem) (base H type off len : Nat)
    (h : findHeader (hdrBuf m H) base H type = .found off len) :
    hdrOff + 4 ≤ off ∧ off + len ≤ H ∧ le16 m (off - 4) = type ∧ le16 m (off - 2) = len := by
  unfold findHeader at h
  split at h
  · simp at h
  · obtain ⟨h1, h2, -, b0, b1, b2, b3, r0, r1, r2, r3, ht, hl⟩ := findLoop_found _ _ h
    refine ⟨h1, h2, ?_, ?_⟩
    all_goals
      unfold hdrBuf at r0 r1 r2 r3
      rw [if_pos (by omega)] at r0 r1 r2 r3
      unfold le16
    · rw [show off - 4 + 1 = off - 3 by omega, Option.some.inj r0, Option.some.inj r1]; exact ht
    · rw [show off - 2 + 1 = off - 1 by omega, Option.some.inj r2, Option.some.inj r3]; exact hl

/-- **C13/C14** (refinement to the documented format): a field is returned exactly when it is the
first field with the requested type on the documented walk over tags and padding bytes, starting
at offset 8 (`Walk` only steps over fields of other types). -/
theorem findHeader_iff (m : Mem) (base H type off len : Nat) :
    findHeader (hdrBuf m H) base H type = .found off len ↔
      4 ≤ off ∧ off < H ∧ Walk m base H type hdrOff (off - 4) ∧ le16 m (off - 4) = type ∧
      type ≠ 0 ∧ m (off - 4) ≠ 0xFF#8 ∧ (base + (off - 4)) % 2 = 0 ∧ le16 m (off - 2) = len ∧
      4 + len ≤ (H - hdrOff) % 65536 ∧ off + len ≤ H ∧ hdrOff ≤ H := by
  unfold findHeader
  constructor
  · intro h
    split at h
    · simp at h
    · obtain ⟨a, b, c, d, e, f, g, i, j, k⟩ := findLoop_sound _ _ h
      exact ⟨a, b, c, d, e, f, g, i, j, k, by omega⟩
  · rintro ⟨a, b, c, d, e, f, g, rfl, j, k, l⟩
    rw [if_neg (by omega)]
    have he : off - 4 + 2 = off - 2 := by omega
    have := findLoop_complete hdrOff c (by omega) d e f g (by rw [he]; exact j)
      (by rw [he]; omega) (H + 1) (by omega)
    rw [he, show off - 4 + 4 = off by omega] at this
    exact this

/-- The concrete header used in the examples: version tag 7 and a padding byte pair, followed by
an image type tag, then an (unsigned) second version tag 9. Header size 40. -/
def exHdr : List Byte :=
  [0x57#8, 0x4F#8, 0x4C#8, 0x46#8, 4#8, 0#8, 0#8, 0#8,
   1#8, 0#8, 4#8, 0#8, 7#8, 0#8, 0#8, 0#8, 0xFF#8, 0xFF#8,
   4#8, 0#8, 2#8, 0#8, 1#8, 2#8,
   1#8, 0#8, 4#8, 0#8, 9#8, 0#8, 0#8, 0#8]

/-- Non-vacuity of `findHeader_in_bounds`: the version and the type tag are found. -/
example : findHdr (ofList exHdr) 40 1 = .found 12 4 ∧ findHdr (ofList exHdr) 40 4 = .found 22 2 ∧
    findHdr (ofList exHdr) 40 3 = .notFound := by decide

/-- **C14** (first match, locality): if a tag is found ending before offset `s`, then any other
header content that agrees on the bytes before `s` yields the same field, whatever its other
bytes are. With `s` the end of the part covered by the digest, unsigned bytes cannot override a
signed field. -/
theorem findHeader_signed_field_stable (m m' : Mem) (H type off len s : Nat)
    (h : findHdr m H type = .found off len) (hs : off + len ≤ s)
    (hag : Agree m' m hdrOff s) :
    findHdr m' H type = .found off len ∧ slice m' off len = slice m off len := by
  have hb := findHeader_in_bounds m 0 H type off len h
  constructor
  · unfold findHdr findHeader at h ⊢
    split at h
    · simp at h
    · next hH =>
      rw [if_neg hH]
      refine findLoop_local _ _ h ?_
      intro a h1 h2
      unfold hdrBuf
      rw [hag a h1 (by omega)]
  · exact slice_congr (hag.mono (by omega) hs)

/-- Non-vacuity of `findHeader_signed_field_stable`: version found in the first 16 bytes, and the
rest of the header replaced by a forged version tag. -/
example :
    findHdr (fun a => if a < 16 then ofList exHdr a else ofList exHdr (a + 8)) 40 1
      = .found 12 4 := by decide

/-- The parity of the buffer address matters (line 840): the same header placed at an odd address
yields no version. Callers rely on the alignment of partitions and of the static header copy. -/
theorem findHeader_odd_address :
    findHeader (hdrBuf (ofList exHdr) 40) 1 40 1 ≠ findHeader (hdrBuf (ofList exHdr) 40) 0 40 1 := by
  decide

end Verif
