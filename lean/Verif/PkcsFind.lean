import Verif.PkcsCrash

/-!
# PKCS#11 object store: examples, and where C34 fails
-/

namespace Verif

/-! ## Examples -/

namespace VaultDemo

/-- Sectors of two objects. -/
def gA : VCfg := ⟨384, 192, 2⟩

/-- Objects of two sectors. -/
def gB : VCfg := ⟨192, 384, 2⟩

/-- The geometry of an STM32H5 (`WOLFBOOT_SECTOR_SIZE` 0x2000) and of an STM32U5 or STM32L5 (0x800), `/repo/src/pkcs11_store.c:36-42`. -/
def gH5 : VCfg := ⟨0x2000, 0x1000, 0x17⟩

def gU5 : VCfg := ⟨0x800, 0x1000, 0x17⟩

theorem gA_ok : gA.OK := by constructor <;> decide
theorem gB_ok : gB.OK := by constructor <;> decide
theorem gH5_ok : gH5.OK := by constructor <;> decide
theorem gU5_ok : gU5.OK := by constructor <;> decide

def kA : VKey := ⟨5, 1, 9⟩
def kB : VKey := ⟨5, 2, 9⟩

theorem kA_ok : kA.OK := by constructor <;> decide
theorem kB_ok : kB.OK := by constructor <;> decide

/-- Flash at first: no magic number. -/
def blank : Mem := fun _ => 0#8

/-- An initialised vault. -/
def start (g : VCfg) : Mem := vRun blank (vCheck g blank)

theorem start_abs {g : VCfg} (w : g.OK) : VAbs g (start g) (fun _ => none) sEmpty := by
  have h := store_format w (v := blank) (l := []) (by decide +kernel) (show ¬ _ from by
    have : ∀ a, le32 blank a = 0 := fun _ => rfl
    rw [this]; decide) (List.nil_prefix)
  exact h

/-- Bytes. -/
def txt (l : List Nat) : Mem := fun i => BitVec.ofNat 8 (l.getD i 0)

/-- Two objects are written in turn. -/
def prog : List SOp :=
  [.openW kA, .openW kB, .write 0 (txt [1, 2, 3]) 3, .write 1 (txt [7, 8]) 2, .write 0 (txt [4]) 1, .close 0, .openR kA, .read 0 2, .read 0 9, .openR kB]

/-- `store_refines_partial`: these results are what was written. -/
example : (vExec gA (fun _ => none) (start gA) prog).1 =
    [.opened 0, .opened 1, .wrote (some 3), .wrote (some 2), .wrote (some 1), .closed, .opened 0, .bytes (some [1#8, 2#8]), .bytes (some [3#8, 4#8]), .opened 2] := by
  decide +kernel

/-- `store_refines_partial` applies to this sequence. -/
example : SAdmits gA sEmpty prog := by
  have h0 : ∀ (s : SState) h d len, SValid gA s (.write h d len) := fun s h d len => Or.inl (by decide)
  refine ⟨⟨kA_ok, fun h y e => by simp [sEmpty] at e⟩, ?_⟩
  intro r s1 e1
  refine ⟨⟨kB_ok, ?_⟩, ?_⟩
  · intro h y e _
    cases e1 with
    | noHandleW _ => simp [sEmpty] at e
    | openW _ _ =>
      have e : fset sEmpty.hs _ _ h = some y := e
      unfold fset at e
      split at e
      · obtain rfl := Option.some.inj e; decide
      · simp [sEmpty] at e
    | full _ _ => simp [sEmpty] at e
  · intro _ _ _
    refine ⟨h0 _ _ _ _, fun _ _ _ => ⟨h0 _ _ _ _, fun _ _ _ => ⟨h0 _ _ _ _, fun _ _ _ => ⟨trivial, fun _ _ _ => ⟨kA_ok, fun _ _ _ => ⟨trivial, fun _ _ _ => ⟨trivial,
      fun _ _ _ => ⟨kB_ok, fun _ _ _ => trivial⟩⟩⟩⟩⟩⟩⟩⟩

/-- `store_power_loss_partial`: power fails after 4 and after 7 of the flash operations that create an object: first it is not there, then it is empty. -/
example : vGet gA kA (vRun (start gA) ((vStep gA (fun _ => none) (start gA) (.openW kA)).2.2.take 4)) = none ∧
    vGet gA kA (vRun (start gA) ((vStep gA (fun _ => none) (start gA) (.openW kA)).2.2.take 7)) = some [] := by
  decide +kernel

/-- The vault with an object that has some content, and a handle for writing. -/
def vA3 (g : VCfg) : List SRes × VHandles × Mem := vExec g (fun _ => none) (start g) [.openW kB, .write 0 (txt [7, 8]) 2, .openW kA, .write 1 (txt [1, 2, 3]) 3]

/-- `store_power_loss_partial`: in all states of a write. -/
example : (List.range 9).map (fun n => vGet gA kA (vRun (vA3 gA).2.2 ((vStep gA (vA3 gA).2.1 (vA3 gA).2.2 (.write 1 (txt [4]) 1)).2.2.take n))) =
    [some [1, 2, 3], some [1, 2, 3], some [1, 2, 3], some [1, 2, 3], some [1, 2, 3], some [1, 2, 3], some [1, 2, 3], some [1, 2, 3, 4], some [1, 2, 3, 4]] := by
  decide +kernel

/-- `store_format`: power fails after the backup sector was written. -/
example : vGet gA kA (vRun blank ((vCheck gA blank).take 3)) = none := by decide +kernel

end VaultDemo

open VaultDemo

/-! ## Writes that cross a sector -/

/-- A write that begins in one sector and ends in the next one: `len`, and not what is left of it, bounds the number of bytes in the second sector
(`/repo/src/pkcs11_store.c:515-516`). More bytes are written than the caller gave, and the size counts them. -/
theorem store_write_overshoot {g : VCfg} (w : g.OK) {v : Mem} (h : VInv g v) {k : Nat} (hk : k < g.nodes) (hu : VUsed v k) (d : Mem) (n : Nat)
    (hn : vSize v k + n ≤ g.obj) (h1 : g.ss - (g.data (vPos v k) + vSize v k) % g.ss < n)
    (h2 : n < g.ss - (g.data (vPos v k) + vSize v k) % g.ss + g.ss) :
    (vWrite g ⟨false, g.data (vPos v k), vA k, vSize v k⟩ d n v).1 = some n ∧
    vSize (vRun v (vWrite g ⟨false, g.data (vPos v k), vA k, vSize v k⟩ d n v).2.2) k =
      (vSize v k + (g.ss - (g.data (vPos v k) + vSize v k) % g.ss) + min n g.ss) % 4294967296 ∧
    n < g.ss - (g.data (vPos v k) + vSize v k) % g.ss + min n g.ss := by
  have hlow := h.hdr.low k hk hu
  have hs : 0 < g.ss := by have := w.table; omega
  have hge := data_ge g (vPos v k)
  have hle := w.nodes_le hk
  have hsz : le32 v (vA k + 16) = vSize v k := rfl
  generalize hB : g.data (vPos v k) + vSize v k = A at h1 h2 ⊢
  have hmod : A % g.ss < g.ss := Nat.mod_lt _ hs
  have hdm := Nat.div_add_mod' A g.ss
  have hA2 : 2 ≤ A / g.ss := (Nat.le_div_iff_mul_le hs).mpr (by omega)
  have hA3 : 2 * g.ss ≤ A / g.ss * g.ss := Nat.mul_le_mul_right _ hA2
  have hlast : n < g.ss - A % g.ss + min n g.ss := by omega
  refine ⟨?_, ?_, hlast⟩
  · unfold vWrite
    dsimp only
    rw [if_neg (by simp), hsz, if_neg (by omega), if_neg (by omega), if_neg (by omega)]
  · obtain ⟨c1, c2, hloop⟩ : ∃ c1 c2, vWriteLoop g (g.data (vPos v k)) d n n (vSize v k) 0 v =
        (vSize v k + (g.ss - A % g.ss) + min n g.ss, g.ss - A % g.ss + min n g.ss, vCommit g (A - A % g.ss) c1 ++ vCommit g (A - A % g.ss + g.ss) c2) := by
      obtain ⟨m, hm⟩ : ∃ m, n = m + 2 := ⟨n - 2, by omega⟩
      have hstop : ∀ f o wr v', n ≤ wr → vWriteLoop g (g.data (vPos v k)) d n f o wr v' = (o, wr, []) := by
        intro f o wr v' hw
        cases f with
        | zero => rfl
        | succ f => unfold vWriteLoop; exact if_neg (by omega)
      have hmod2 : (g.data (vPos v k) + (vSize v k + (g.ss - A % g.ss))) % g.ss = 0 := by
        have : g.data (vPos v k) + (vSize v k + (g.ss - A % g.ss)) = (A / g.ss + 1) * g.ss := by
          rw [Nat.succ_mul]; omega
        rw [this]; exact Nat.mul_mod_left _ _
      have e : vWriteLoop g (g.data (vPos v k)) d n n (vSize v k) 0 v = vWriteLoop g (g.data (vPos v k)) d n (m + 1 + 1) (vSize v k) 0 v := by
        rw [show m + 1 + 1 = n by omega]
      rw [e]
      unfold vWriteLoop
      rw [if_pos (by omega), hB]
      dsimp only
      rw [show (if g.ss - A % g.ss > n then n else g.ss - A % g.ss) = g.ss - A % g.ss from if_neg (by omega), Nat.zero_add]
      unfold vWriteLoop
      rw [if_pos (by omega)]
      dsimp only
      rw [hmod2, Nat.sub_zero, Nat.sub_zero, show (if g.ss > n then n else g.ss) = min n g.ss by split <;> omega, hstop _ _ _ _ (by omega)]
      dsimp only
      rw [List.append_nil, show g.data (vPos v k) + (vSize v k + (g.ss - A % g.ss)) = A - A % g.ss + g.ss by omega,
        Nat.add_assoc (vSize v k)]
      exact ⟨_, _, by rw [← Nat.add_assoc]⟩
    unfold vWrite
    dsimp only
    rw [if_neg (by simp), hsz, if_neg (by omega), if_neg (by omega), if_neg (by omega), hloop]
    dsimp only
    have hhdr : SameHdr g (vRun v (vCommit g (A - A % g.ss) c1 ++ vCommit g (A - A % g.ss + g.ss) c2)) v := by
      intro i hi
      rw [vRun_append, run_commit, run_commit, vPut_out (by omega), vPut_out (by omega), vPut_out (by omega), vPut_out (by omega)]
    rw [setSize_eq (by omega) (by rw [hhdr.le32 (by have := w.table; omega)]; exact h.hdr.magic), vRun_append]
    generalize vRun v (vCommit g (A - A % g.ss) c1 ++ vCommit g (A - A % g.ss + g.ss) c2) = y
    rw [run_commit, Nat.add_assoc (vSize v k)]
    show le32 _ _ = _
    have hput : ∀ (c : Mem) (a x : Nat), le32 (putW c a x) a = x % 4294967296 := by
      intro c a x
      unfold le32 putW
      simp only [if_true]
      rw [if_neg (by omega), if_neg (by omega), if_neg (by omega), if_neg (by omega), if_neg (by omega), if_neg (by omega)]
      simp only [BitVec.toNat_ofNat]
      omega
    rw [← hput y (vA k + 16)]
    refine le32_agree fun i hi => ?_
    rw [vPut_in (by omega) (by omega), Nat.sub_zero]

/-- With the geometry of an STM32U5, and scaled down: 200 bytes are written, 376 are read back. -/
theorem store_overshoot_witness :
    ((vExec gB (fun _ => none) (start gB) [.openW kA, .write 0 (txt [1]) 200, .openR kA]).1 = [.opened 0, .wrote (some 200), .opened 1]) ∧
    (vGet gB kA (vExec gB (fun _ => none) (start gB) [.openW kA, .write 0 (txt [1]) 200]).2.2).map List.length = some 376 := by
  decide +kernel

/-! ## Power loss that is not covered -/

/-- Opening an object for writing discards its content at once: whoever replaces the content of an object, and loses power before the new content is there, has an
empty object. -/
theorem store_overwrite_not_atomic {g : VCfg} (w : g.OK) {v : Mem} (h : VInv g v) (hb : VBak g v) {key : VKey} (hk : key.OK) {hs : VHandles} {n : Nat}
    (hf : vFreeHandle hs 16 0 = some n) (hex : vGet g key v ≠ none) : vGet g key (vRun v (vOpen g key false hs v).2.2) = some [] := by
  rcases open_write_done w h hb hk hf with ⟨hno, _, _⟩ | ⟨k0, ops, e, hx, _, hn, hs8, _⟩
  · exact absurd (h.absent w hb hk hno).2 hex
  · rw [e]
    rw [hx.get w hk.none hn, content_empty hs8]

/-- A torn write of the header sector: if only the magic number got there, `check_vault` does not look at the backup, and all objects are gone, although the backup
sector holds a complete header. -/
theorem store_torn_header {g : VCfg} (w : g.OK) {v c : Mem} (hc : HInv g c) {key : VKey} (hk : key.OK) :
    vGet g key (vPut (vPut v g.ss g.ss c) 0 g.ss fun i => if i < 4 then c i else 0xFF#8) = none := by
  have ht := w.table
  generalize hy : (vPut (vPut v g.ss g.ss c) 0 g.ss fun i => if i < 4 then c i else 0xFF#8) = y
  have hm : le32 y 0 = VMAGIC := by
    rw [← hc.magic, ← hy]
    refine le32_agree fun i hi => ?_
    rw [vPut_in (by omega) (by omega), if_pos (by omega)]
    rfl
  have hb : VBak g y := by
    apply bak_of_hdr w hc
    intro i hi
    rw [← hy, vPut_out (by omega), vPut_in (by omega) (by omega), Nat.add_sub_cancel_left]
  rw [vGet_ok hm]
  refine (getAt_none (scan_absent w hk hb ?_)).2
  intro k hkn e
  have hle := w.nodes_le hkn
  have : le32 y (vA k) = VNONE := by
    refine le32_ff fun i hi => ?_
    rw [← hy, vPut_in (by omega) (by omega), if_neg (by unfold vA; omega)]
  exact used_of_key hk.none e this

/-- Recovery is left to the next opening of the object itself: if another object is opened for writing first, the backup is gone, and the interrupted object is
deleted with what it had before the write. -/
theorem store_lazy_recovery :
    let g : VCfg := ⟨192, 192, 2⟩
    let v := (vA3 g).2.2
    let crash := vRun v ((vStep g (vA3 g).2.1 v (.write 1 (txt [4]) 1)).2.2.take 3)
    vGet g kA v = some [1, 2, 3] ∧ vGet g kA crash = some [1, 2, 3] ∧
    vGet g kA (vRun crash (vStep g (fun _ => none) crash (.openW kB)).2.2) = none := by
  decide +kernel

/-- Objects of more than one sector: power loss while the second sector is written loses what was there before. -/
theorem store_second_sector :
    let r := vExec gB (fun _ => none) (start gB) [.openW kA, .write 0 (txt [1]) 184, .write 0 (txt [7, 7, 7]) 3]
    let crash := vRun r.2.2 ((vStep gB r.2.1 r.2.2 (.write 0 (txt [8, 8]) 2)).2.2.take 3)
    (vGet gB kA r.2.2).map (List.drop 184) = some [7, 7, 7] ∧ (vGet gB kA crash).map (List.drop 184) = some [0xFF, 0xFF, 0xFF] := by
  decide +kernel

/-- The search for an object goes on into the backup sector (`/repo/src/pkcs11_store.c:256`). After a crash it holds a sector with objects, and the content of an
object is taken for nodes: here the object `kA` with type 6, which was never created, is found. Looking for it restores the backup over the sector that is named
in the content, and `kB` is destroyed. -/
theorem store_phantom :
    let g : VCfg := ⟨192, 192, 2⟩
    let r := vExec g (fun _ => none) (start g) [.openW kA, .openW kB, .write 1 (txt [7, 8]) 2]
    let op : SOp := .write 0 (txt [6, 0, 0, 0, 1, 0, 0, 0, 12, 0, 0, 0]) 12
    let crash := vRun r.2.2 ((vStep g r.2.1 r.2.2 op).2.2.take 2)
    let after := vRun crash (vStep g (fun _ => none) crash (.openR ⟨6, 1, 9⟩)).2.2
    (vStep g (fun _ => none) crash (.openR ⟨6, 1, 9⟩)).1 = .opened 0 ∧ vGet g kB crash = some [7, 8] ∧ vGet g kB after = none := by
  decide +kernel

/-! ## The region of the STM32H5 -/

/-- With sectors of 0x2000 bytes the vault ends behind the 0x18000 bytes that the linker script of the STM32H5 reserves (`/repo/hal/stm32h5.ld`): the
last objects, and the erase in `check_vault`, are in the region that follows. -/
theorem store_h5_region : 0x18000 < gH5.data 0x14 + gH5.obj ∧ 2 * gH5.ss + gH5.total = 0x1C000 := by decide

end Verif
