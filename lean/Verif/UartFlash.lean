import Verif.Basic

/-!
# Remote flash over UART: `/repo/src/uart_flash.c` and `/repo/tools/uart-flash-server/ufserver.c` (C37)

The target (client) and the host (server) exchange bytes over a line that is a queue in each direction; the two sides run concurrently
and every interleaving is considered. A poll of the client that finds nothing is not a step; its timeouts (`WAIT_CYCLES` polls) expire exactly
if nothing is under way any more, that is both queues are empty and the server is waiting. The line neither loses nor alters bytes.
-/

namespace Verif

/-- `CMD_ACK`, `/repo/src/uart_flash.c:41`. -/
def UACK : Byte := 0x06#8

/-- Programs of the client. -/
inductive UProc (α : Type) where
  | ret (a : α)
  | tx (b : Byte) (k : UProc α)
  | rx (k : Option Byte → UProc α)

namespace UProc

/-- Sequencing. -/
def bind {α β : Type} : UProc α → (α → UProc β) → UProc β
  | .ret a, f => f a
  | .tx b k, f => .tx b (bind k f)
  | .rx k, f => .rx fun o => bind (k o) f

end UProc

/-- `wait_ack`, `/repo/src/uart_flash.c:50-59`: the result is "acknowledged". Bytes other than the acknowledgement are dropped, each uses up one of
the `w` cycles. -/
def uWaitAck : Nat → UProc Bool
  | 0 => .ret false
  | w + 1 => .rx fun
    | none => .ret false
    | some c => if c = UACK then .ret true else uWaitAck w

/-- The send loops, `/repo/src/uart_flash.c:86-95`: every byte is acknowledged. -/
def uSend (w : Nat) : List Byte → UProc Bool
  | [] => .ret true
  | b :: bs => .tx b ((uWaitAck w).bind fun ok => if ok then uSend w bs else .ret false)

/-- Little-endian bytes of a 32-bit word. -/
def uWord (x : Nat) : List Byte :=
  [BitVec.ofNat 8 x, BitVec.ofNat 8 (x / 256), BitVec.ofNat 8 (x / 65536), BitVec.ofNat 8 (x / 16777216)]

/-- The command, `/repo/src/uart_flash.c:75-85`: `'W'`, the code, the low 32 bits of the address, the length. -/
def uHdr (code : Byte) (address len : Nat) : List Byte := [0x57#8, code] ++ uWord address ++ uWord len

/-- `ext_flash_write`, `/repo/src/uart_flash.c:72-97`. -/
def uWrite (w : Nat) (address : Nat) (data : List Byte) : UProc Int :=
  (uSend w (uHdr 1 address data.length)).bind fun ok =>
    if ok then (uSend w data).bind fun ok => if ok then .ret data.length else .ret (-1)
    else .ret (-1)

/-- The receive loop of `ext_flash_read`, `/repo/src/uart_flash.c:119-123` with `uart_rx_timeout`, lines 61-70; `got` is what was stored so far
(`data[i] = 0` after a timeout). The result is `(return value, stored bytes)`. -/
def uRecv : Nat → List Byte → UProc (Int × List Byte)
  | 0, got => .ret (got.length, got)
  | n + 1, got => .rx fun
    | none => .ret (0, got ++ [0])
    | some c => .tx UACK (uRecv n (got ++ [c]))

/-- `ext_flash_read`, `/repo/src/uart_flash.c:99-125`. -/
def uRead (w : Nat) (address len : Nat) : UProc (Int × List Byte) :=
  (uSend w (uHdr 2 address len)).bind fun ok => if ok then uRecv len [] else .ret (-1, [])

/-- `ext_flash_erase`, `/repo/src/uart_flash.c:127-150`. -/
def uErase (w : Nat) (address len : Nat) : UProc Int :=
  (uSend w (uHdr 3 address len)).bind fun ok =>
    if ok then (uWaitAck w).bind fun ok => .ret (if ok then 0 else -1) else .ret (-1)

/-- `ext_flash_lock` and `ext_flash_unlock`, `/repo/src/uart_flash.c:152-160`. -/
def uLock (w : Nat) : UProc Unit := (uWaitAck w).bind fun _ => .ret ()

/-- `uart_send_current_version`, `/repo/src/uart_flash.c:162-179`. -/
def uVersion (w : Nat) (v : Nat) : UProc Unit := (uSend w (0x56#8 :: uWord v)).bind fun _ => .ret ()

/-! ## Server -/

/-- `FIRMWARE_PARTITION_SIZE + SWAP_SIZE`, `/repo/tools/uart-flash-server/ufserver.c:53-54`. -/
def uSize : Nat := 0x21000

/-- The three commands. -/
inductive UCmd where
  | write
  | read
  | erase

/-- Where the server waits for a byte; `bad`: it accessed memory outside of the mapped file. -/
inductive ULoc where
  /-- `/repo/tools/uart-flash-server/ufserver.c:398` -/
  | stx
  /-- line 449 -/
  | cmd
  /-- `read_word`, lines 267-280: the bytes of address and length so far -/
  | args (c : UCmd) (got : List Byte)
  /-- lines 361-364 -/
  | wr (address len i : Nat)
  /-- lines 334-337 -/
  | rd (address len i : Nat)
  /-- lines 427-438 -/
  | ver (got : List Byte)
  /-- lines 413-422 -/
  | appVer (got : List Byte)
  | bad

/-- The server: location, mapped file, versions reported by the target so far. -/
structure USrv where
  loc : ULoc
  base : Mem
  versions : List Nat := []

/-- 32-bit word from its bytes. -/
def uVal (l : List Byte) : Nat := le32 (ofList l) 0

/-- After the arguments: `uart_flash_erase`, `uart_flash_read`, `uart_flash_write`,
`/repo/tools/uart-flash-server/ufserver.c:282-366`; the acknowledgement of the last argument byte comes first. -/
def uDispatch (s : USrv) (c : UCmd) (address len : Nat) : USrv × List Byte :=
  if uSize < (address + len) % 2 ^ 32 then ({ s with loc := .stx }, [UACK])
  else if len = 0 then ({ s with loc := .stx }, match c with | .erase => [UACK, UACK] | _ => [UACK])
  else match c with
  | .erase =>
    if uSize < address + len then ({ s with loc := .bad }, [UACK])
    else ({ s with loc := .stx, base := fun i => if address ≤ i ∧ i < address + len then 0xFF#8 else s.base i }, [UACK, UACK])
  | .read => if uSize ≤ address then ({ s with loc := .bad }, [UACK]) else ({ s with loc := .rd address len 0 }, [UACK, s.base address])
  | .write => ({ s with loc := .wr address len 0 }, [UACK])

/-- The server receives a byte: the code from one `read` to the next, `serve_update`, `/repo/tools/uart-flash-server/ufserver.c:385-477`. -/
def uServe (s : USrv) (b : Byte) : USrv × List Byte :=
  match s.loc with
  | .stx =>
    if b = 0x57#8 then ({ s with loc := .cmd }, [UACK])
    else if b = 0x56#8 then ({ s with loc := .ver [] }, [UACK])
    else if b = 0x2A#8 then ({ s with loc := .appVer [] }, [])
    else (s, [])
  | .cmd =>
    if b = 3#8 then ({ s with loc := .args .erase [] }, [UACK])
    else if b = 2#8 then ({ s with loc := .args .read [] }, [UACK])
    else if b = 1#8 then ({ s with loc := .args .write [] }, [UACK])
    else ({ s with loc := .stx }, [])
  | .args c got =>
    if got.length < 7 then ({ s with loc := .args c (got ++ [b]) }, [UACK])
    else uDispatch s c (uVal (got.take 4)) (uVal ((got ++ [b]).drop 4))
  | .wr address len i =>
    if uSize ≤ address + i then ({ s with loc := .bad }, [])
    else ({ s with base := fun j => if j = address + i then b else s.base j,
                   loc := if i + 1 < len then .wr address len (i + 1) else .stx }, [UACK])
  | .rd address len i =>
    if i + 1 < len then
      if uSize ≤ address + (i + 1) then ({ s with loc := .bad }, [])
      else ({ s with loc := .rd address len (i + 1) }, [s.base (address + (i + 1))])
    else ({ s with loc := .stx }, [])
  | .ver got =>
    if got.length < 3 then ({ s with loc := .ver (got ++ [b]) }, [UACK])
    else ({ s with loc := .stx, versions := s.versions ++ [uVal (got ++ [b])] }, [UACK])
  | .appVer got => if got.length < 3 then ({ s with loc := .appVer (got ++ [b]) }, []) else ({ s with loc := .stx }, [])
  | .bad => (s, [])

/-! ## The line -/

/-- Client, server, bytes under way to the server and to the client. -/
structure ULine (α : Type) where
  cl : UProc α
  sv : USrv
  toSv : List Byte
  toCl : List Byte

/-- One step of either side. -/
inductive UStep {α : Type} : ULine α → ULine α → Prop where
  | tx (b k sv p q) : UStep ⟨.tx b k, sv, p, q⟩ ⟨k, sv, p ++ [b], q⟩
  | rx (k sv p b q) : UStep ⟨.rx k, sv, p, b :: q⟩ ⟨k (some b), sv, p, q⟩
  | timeout (k sv) : UStep ⟨.rx k, sv, [], []⟩ ⟨k none, sv, [], []⟩
  | serve (c sv b p q) : UStep ⟨c, sv, b :: p, q⟩ ⟨c, (uServe sv b).1, p, q ++ (uServe sv b).2⟩

/-- `n` steps. -/
inductive USteps {α : Type} : Nat → ULine α → ULine α → Prop where
  | refl (s) : USteps 0 s s
  | step {n s t u} : UStep s t → USteps n t u → USteps (n + 1) s u

/-- Specification: whatever the interleaving, the system started in `s` comes to rest in `t`: no run is longer than `n` steps, and every
run can be continued to `t`, where no step is possible. -/
def UEnds {α : Type} (s t : ULine α) : Prop :=
  (∀ u, ¬ UStep t u) ∧ ∃ n, ∀ m u, USteps m s u → m ≤ n ∧ USteps (n - m) u t

theorem USteps.trans {α : Type} {n m : Nat} {s t u : ULine α} (h1 : USteps n s t) (h2 : USteps m t u) : USteps (n + m) s u := by
  induction h1 with
  | refl => rw [Nat.zero_add]; exact h2
  | step a _ ih => rw [show ∀ x, x + 1 + m = (x + m) + 1 by omega]; exact .step a (ih h2)

theorem UStep.diamond {α : Type} {s a b : ULine α} (h1 : UStep s a) (h2 : UStep s b) : a = b ∨ ∃ c, UStep a c ∧ UStep b c := by
  cases h1 with
  | tx b k sv p q =>
    cases h2 with
    | tx => exact .inl rfl
    | serve _ _ c p' => exact .inr ⟨_, .serve .., .tx ..⟩
  | rx k sv p b q =>
    cases h2 with
    | rx => exact .inl rfl
    | serve _ _ c p' => exact .inr ⟨_, .serve .., .rx ..⟩
  | timeout k sv =>
    cases h2 with
    | timeout => exact .inl rfl
  | serve c sv b p q =>
    cases h2 with
    | tx b' k => exact .inr ⟨_, .tx .., .serve ..⟩
    | rx k _ _ b' q' => exact .inr ⟨_, .rx .., .serve ..⟩
    | serve => exact .inl rfl

/-- Random descent: a run to a state of rest determines all runs. -/
theorem usteps_descent {α : Type} : ∀ n (s t : ULine α), USteps n s t → (∀ u, ¬ UStep t u) →
    ∀ m u, USteps m s u → m ≤ n ∧ USteps (n - m) u t := by
  intro n
  induction n with
  | zero =>
    intro s t h ht m u hu
    cases h
    cases hu with
    | refl => exact ⟨Nat.le_refl _, .refl _⟩
    | step a _ => exact absurd a (ht _)
  | succ n ih =>
    intro s t h ht m u hu
    cases h with
    | step a h' =>
      cases hu with
      | refl => exact ⟨by omega, .step a h'⟩
      | @step m' _ b _ a' hu' =>
        rcases UStep.diamond a a' with rfl | ⟨c, hc1, hc2⟩
        · obtain ⟨x, y⟩ := ih _ _ h' ht _ _ hu'
          exact ⟨by omega, by rw [show n + 1 - (m' + 1) = n - m' by omega]; exact y⟩
        · -- from `a` one step to `c`, so `c` reaches `t` in `n - 1`; hence `b` in `n`
          obtain ⟨x, y⟩ := ih _ _ h' ht 1 c (.step hc1 (.refl _))
          have hb : USteps n b t := by
            have := USteps.step hc2 y
            rwa [show n - 1 + 1 = n by omega] at this
          obtain ⟨x', y'⟩ := ih _ _ hb ht _ _ hu'
          exact ⟨by omega, by rw [show n + 1 - (m' + 1) = n - m' by omega]; exact y'⟩

/-- One run to a state of rest suffices. -/
theorem UEnds.of_run {α : Type} {n : Nat} {s t : ULine α} (h : USteps n s t) (ht : ∀ u, ¬ UStep t u) : UEnds s t :=
  ⟨ht, n, usteps_descent n s t h ht⟩

/-- Reachability without the count. -/
def UReach {α : Type} (s t : ULine α) : Prop := ∃ n, USteps n s t

theorem UReach.trans {α : Type} {s t u : ULine α} (h1 : UReach s t) (h2 : UReach t u) : UReach s u :=
  let ⟨_, a⟩ := h1; let ⟨_, b⟩ := h2; ⟨_, a.trans b⟩

theorem UReach.rfl' {α : Type} (s : ULine α) : UReach s s := ⟨0, .refl s⟩

theorem UReach.one {α : Type} {s t : ULine α} (h : UStep s t) : UReach s t := ⟨1, .step h (.refl _)⟩

theorem UEnds.of_reach {α : Type} {s : ULine α} {a : α} {sv : USrv} (h : UReach s ⟨.ret a, sv, [], []⟩) : UEnds s ⟨.ret a, sv, [], []⟩ := by
  obtain ⟨n, h⟩ := h
  refine .of_run h fun u hu => ?_
  cases hu

/-! ## Lock-step runs -/

theorem bind_assoc' {α β γ : Type} (p : UProc α) (f : α → UProc β) (g : β → UProc γ) :
    (p.bind f).bind g = p.bind fun a => (f a).bind g := by
  induction p with
  | ret a => rfl
  | tx b k ih => simp only [UProc.bind, ih]
  | rx k ih => simp only [UProc.bind]; congr 1; funext o; exact ih o

/-- A byte is sent, the server acknowledges it and the client goes on. -/
theorem uack_step {α : Type} (w : Nat) (hw : 0 < w) (b : Byte) (sv sv' : USrv) (rest : List Byte) (f : Bool → UProc α)
    (h : uServe sv b = (sv', UACK :: rest)) :
    UReach ⟨.tx b ((uWaitAck w).bind f), sv, [], []⟩ ⟨f true, sv', [], rest⟩ := by
  obtain ⟨w, rfl⟩ : ∃ v, w = v + 1 := ⟨w - 1, by omega⟩
  refine UReach.trans (.one (.tx ..)) (UReach.trans (.one (.serve ..)) ?_)
  rw [h]
  exact .one (.rx (fun o => UProc.bind _ f) sv' [] UACK rest)

/-- The server's state after a list of bytes, all acknowledged with exactly one byte. -/
def uFeed (sv : USrv) : List Byte → Option USrv
  | [] => some sv
  | b :: bs => if (uServe sv b).2 = [UACK] then uFeed (uServe sv b).1 bs else none

theorem uSend_run {α : Type} (w : Nat) (hw : 0 < w) (f : Bool → UProc α) : ∀ (l : List Byte) (sv sv' : USrv), uFeed sv l = some sv' →
    UReach ⟨(uSend w l).bind f, sv, [], []⟩ ⟨f true, sv', [], []⟩ := by
  intro l
  induction l with
  | nil =>
    intro sv sv' h
    cases h
    exact .rfl' _
  | cons b l ih =>
    intro sv sv' h
    unfold uFeed at h
    split at h
    · next hb =>
      unfold uSend
      simp only [UProc.bind]
      rw [bind_assoc']
      refine UReach.trans (uack_step w hw b sv (uServe sv b).1 [] _ (Prod.ext rfl hb)) ?_
      simp only [if_true]
      exact ih _ _ h
    · cases h

/-- The same with a last byte that is acknowledged and followed by further bytes. -/
theorem uSend_last {α : Type} (w : Nat) (hw : 0 < w) (f : Bool → UProc α) (b : Byte) (rest : List Byte) : ∀ (l : List Byte)
    (sv sv1 sv' : USrv), uFeed sv l = some sv1 → uServe sv1 b = (sv', UACK :: rest) →
    UReach ⟨(uSend w (l ++ [b])).bind f, sv, [], []⟩ ⟨f true, sv', [], rest⟩ := by
  intro l
  induction l with
  | nil =>
    intro sv sv1 sv' h h1
    cases h
    simp only [List.nil_append, uSend, UProc.bind]
    rw [bind_assoc']
    refine UReach.trans (uack_step w hw b sv sv' rest _ h1) ?_
    simp only [if_true, UProc.bind]
    exact .rfl' _
  | cons b' l ih =>
    intro sv sv1 sv' h h1
    unfold uFeed at h
    split at h
    · next hb =>
      rw [List.cons_append]
      unfold uSend
      simp only [UProc.bind]
      rw [bind_assoc']
      refine UReach.trans (uack_step w hw b' sv (uServe sv b').1 [] _ (Prod.ext rfl hb)) ?_
      simp only [if_true]
      exact ih _ _ _ h h1
    · cases h

theorem uWord_val (x : Nat) (hx : x < 2 ^ 32) : uVal (uWord x) = x := by
  simp only [uVal, uWord, le32, ofList]
  simp
  omega

/-- The command code. -/
def UCmd.code : UCmd → Byte
  | .write => 1#8
  | .read => 2#8
  | .erase => 3#8

/-- The first nine bytes of a command are acknowledged; the tenth starts the operation. -/
theorem uHdr_feed (c : UCmd) (a len : Nat) (ha : a < 2 ^ 32) (hl : len < 2 ^ 32) (m : Mem) (vs : List Nat) :
    ∃ l b, uHdr c.code a len = l ++ [b] ∧ ∃ sv1, uFeed ⟨.stx, m, vs⟩ l = some sv1 ∧
      uServe sv1 b = uDispatch ⟨.args c ((uWord a ++ uWord len).take 7), m, vs⟩ c a len := by
  refine ⟨(uHdr c.code a len).take 9, BitVec.ofNat 8 (len / 16777216), by simp [uHdr, uWord], ⟨.args c ((uWord a ++ uWord len).take 7), m, vs⟩, ?_, ?_⟩
  · cases c <;> simp [uHdr, uWord, uFeed, uServe, UCmd.code]
  · have h1 : uVal (List.take 4 (List.take 7 (uWord a ++ uWord len))) = a := by
      rw [show List.take 4 (List.take 7 (uWord a ++ uWord len)) = uWord a by simp [uWord]]
      exact uWord_val a ha
    have h2 : uVal (List.drop 4 (List.take 7 (uWord a ++ uWord len) ++ [BitVec.ofNat 8 (len / 16777216)])) = len := by
      rw [show List.drop 4 (List.take 7 (uWord a ++ uWord len) ++ [BitVec.ofNat 8 (len / 16777216)]) = uWord len by simp [uWord]]
      exact uWord_val len hl
    unfold uServe
    dsimp only
    rw [if_neg (by simp [uWord]), h1, h2]

/-- Specification: the flash after a write. -/
def uPut (m : Mem) (a : Nat) (data : List Byte) : Mem := fun i => if a ≤ i ∧ i < a + data.length then data.getD (i - a) 0 else m i

theorem uWr_feed (a n : Nat) (vs : List Nat) : ∀ (data : List Byte) (i : Nat) (m : Mem), i + data.length = n → 0 < data.length →
    a + n ≤ uSize → uFeed ⟨.wr a n i, m, vs⟩ data = some ⟨.stx, uPut m (a + i) data, vs⟩ := by
  intro data
  induction data with
  | nil => intro i m _ h; exact absurd h (by simp)
  | cons b data ih =>
    intro i m hn _ hs
    rw [List.length_cons] at hn
    unfold uFeed
    have hserve : uServe ⟨.wr a n i, m, vs⟩ b = (⟨if i + 1 < n then .wr a n (i + 1) else .stx, fun j => if j = a + i then b else m j, vs⟩, [UACK]) := by
      unfold uServe
      dsimp only
      rw [if_neg (by omega)]
    rw [hserve]
    dsimp only
    rw [if_pos rfl]
    cases data with
    | nil =>
      rw [if_neg (by simp at hn; omega)]
      unfold uFeed
      congr 2
      funext j
      unfold uPut
      simp only [List.length_cons, List.length_nil]
      by_cases h : j = a + i
      · rw [if_pos h, if_pos (by omega), h]; simp
      · rw [if_neg h, if_neg (by omega)]
    | cons b' data =>
      rw [if_pos (by simp at hn; omega), ih (i + 1) _ (by omega) (by simp) hs]
      congr 2
      funext j
      unfold uPut
      simp only [List.length_cons] at *
      by_cases h1 : a + (i + 1) ≤ j ∧ j < a + (i + 1) + (data.length + 1)
      · rw [if_pos h1, if_pos (by omega)]
        rw [show j - (a + i) = (j - (a + (i + 1))) + 1 by omega]
        simp
      · rw [if_neg h1]
        by_cases h2 : j = a + i
        · rw [if_pos h2, if_pos (by omega), h2]; simp
        · rw [if_neg h2, if_neg (by omega)]

theorem uWrite_reach {α : Type} (w : Nat) (hw : 0 < w) (a : Nat) (data : List Byte) (m : Mem) (vs : List Nat) (hin : a + data.length ≤ uSize)
    (f : Int → UProc α) :
    UReach ⟨(uWrite w a data).bind f, ⟨.stx, m, vs⟩, [], []⟩ ⟨f data.length, ⟨.stx, uPut m a data, vs⟩, [], []⟩ := by
  have hsz : uSize < 2 ^ 32 := by decide
  unfold uWrite
  rw [bind_assoc']
  obtain ⟨l, b, he, sv1, hf, hs⟩ := uHdr_feed .write a data.length (by omega) (by omega) m vs
  change uHdr 1 a data.length = _ at he
  rw [he]
  unfold uDispatch at hs
  rw [if_neg (by rw [Nat.mod_eq_of_lt (by omega)]; omega)] at hs
  by_cases hl : data.length = 0
  · rw [if_pos hl] at hs
    refine UReach.trans (uSend_last w hw _ b [] l _ _ _ hf hs) ?_
    have : data = [] := List.length_eq_zero_iff.1 hl
    subst this
    simp only [if_true, uSend, UProc.bind]
    have hp : uPut m a [] = m := by
      funext i
      unfold uPut
      rw [if_neg (by simp)]
    rw [hp]
    exact .rfl' _
  · rw [if_neg hl] at hs
    refine UReach.trans (uSend_last w hw _ b [] l _ _ _ hf hs) ?_
    simp only [if_true]
    rw [bind_assoc']
    refine UReach.trans (uSend_run w hw _ data _ _ (uWr_feed a data.length vs data 0 m (by omega) (by omega) hin)) ?_
    simp only [if_true, UProc.bind]
    exact .rfl' _

theorem uErase_reach {α : Type} (w : Nat) (hw : 0 < w) (a n : Nat) (m : Mem) (vs : List Nat) (hin : a + n ≤ uSize) (f : Int → UProc α) :
    UReach ⟨(uErase w a n).bind f, ⟨.stx, m, vs⟩, [], []⟩
      ⟨f 0, ⟨.stx, fun i => if a ≤ i ∧ i < a + n then 0xFF#8 else m i, vs⟩, [], []⟩ := by
  have hsz : uSize < 2 ^ 32 := by decide
  unfold uErase
  rw [bind_assoc']
  obtain ⟨l, b, he, sv1, hf, hs⟩ := uHdr_feed .erase a n (by omega) (by omega) m vs
  change uHdr 3 a n = _ at he
  rw [he]
  unfold uDispatch at hs
  rw [if_neg (by rw [Nat.mod_eq_of_lt (by omega)]; omega)] at hs
  have hs' : uServe sv1 b = (⟨.stx, fun i => if a ≤ i ∧ i < a + n then 0xFF#8 else m i, vs⟩, [UACK, UACK]) := by
    by_cases hl : n = 0
    · rw [if_pos hl] at hs
      rw [hs]
      congr 2
      funext i
      rw [if_neg (by omega)]
    · rw [if_neg hl] at hs
      dsimp only at hs
      rw [if_neg (by omega)] at hs
      exact hs
  refine UReach.trans (uSend_last w hw _ b [UACK] l _ _ _ hf hs') ?_
  simp only [if_true]
  obtain ⟨w, rfl⟩ : ∃ v, w = v + 1 := ⟨w - 1, by omega⟩
  rw [bind_assoc']
  exact .one (.rx (fun o => UProc.bind _ _) _ [] UACK [])

theorem uRecv_reach {α : Type} (a n : Nat) (m : Mem) (vs : List Nat) (hin : a + n ≤ uSize) (f : Int × List Byte → UProc α) :
    ∀ k i got, i + (k + 1) = n → got = slice m a i →
    UReach ⟨(uRecv (k + 1) got).bind f, ⟨.rd a n i, m, vs⟩, [], [m (a + i)]⟩
      ⟨f ((slice m a n).length, slice m a n), ⟨.stx, m, vs⟩, [], []⟩ := by
  intro k
  induction k with
  | zero =>
    intro i got hn hg
    have hsl : slice m a n = got ++ [m (a + i)] := by
      rw [← hn, slice_append, hg]
      rfl
    refine UReach.trans (.one (.rx (fun o => UProc.bind _ f) _ [] (m (a + i)) [])) ?_
    simp only [UProc.bind]
    refine UReach.trans (.one (.tx ..)) (UReach.trans (.one (.serve ..)) ?_)
    have : uServe ⟨.rd a n i, m, vs⟩ UACK = (⟨.stx, m, vs⟩, []) := by
      unfold uServe
      dsimp only
      rw [if_neg (by omega)]
    rw [this]
    simp only [uRecv, UProc.bind, List.append_nil]
    rw [hsl]
    exact .rfl' _
  | succ k ih =>
    intro i got hn hg
    refine UReach.trans (.one (.rx (fun o => UProc.bind _ f) _ [] (m (a + i)) [])) ?_
    simp only [UProc.bind]
    refine UReach.trans (.one (.tx ..)) (UReach.trans (.one (.serve ..)) ?_)
    have : uServe ⟨.rd a n i, m, vs⟩ UACK = (⟨.rd a n (i + 1), m, vs⟩, [m (a + (i + 1))]) := by
      unfold uServe
      dsimp only
      rw [if_pos (by omega), if_neg (by omega)]
    rw [this]
    refine ih (i + 1) (got ++ [m (a + i)]) (by omega) ?_
    rw [slice_append, hg]
    rfl

theorem uRead_reach {α : Type} (w : Nat) (hw : 0 < w) (a n : Nat) (m : Mem) (vs : List Nat) (hin : a + n ≤ uSize)
    (f : Int × List Byte → UProc α) :
    UReach ⟨(uRead w a n).bind f, ⟨.stx, m, vs⟩, [], []⟩ ⟨f (n, slice m a n), ⟨.stx, m, vs⟩, [], []⟩ := by
  have hsz : uSize < 2 ^ 32 := by decide
  unfold uRead
  rw [bind_assoc']
  obtain ⟨l, b, he, sv1, hf, hs⟩ := uHdr_feed .read a n (by omega) (by omega) m vs
  change uHdr 2 a n = _ at he
  rw [he]
  unfold uDispatch at hs
  rw [if_neg (by rw [Nat.mod_eq_of_lt (by omega)]; omega)] at hs
  by_cases hl : n = 0
  · rw [if_pos hl] at hs
    refine UReach.trans (uSend_last w hw _ b [] l _ _ _ hf hs) ?_
    subst hl
    simp only [if_true, uRecv, UProc.bind]
    exact .rfl' _
  · rw [if_neg hl] at hs
    dsimp only at hs
    rw [if_neg (by omega)] at hs
    refine UReach.trans (uSend_last w hw _ b [m a] l _ _ _ hf hs) ?_
    simp only [if_true]
    have := uRecv_reach a n m vs hin f (n - 1) 0 [] (by omega) rfl
    rw [slice_length, show n - 1 + 1 = n by omega] at this
    exact this

theorem uLock_reach {α : Type} (w : Nat) (m : Mem) (vs : List Nat) (f : Unit → UProc α) :
    UReach ⟨(uLock w).bind f, ⟨.stx, m, vs⟩, [], []⟩ ⟨f (), ⟨.stx, m, vs⟩, [], []⟩ := by
  unfold uLock
  rw [bind_assoc']
  cases w with
  | zero => exact .rfl' _
  | succ w => exact .one (.timeout (fun o => UProc.bind _ _) _)

/-- **The version report** arrives unchanged. -/
theorem uart_version (w : Nat) (hw : 0 < w) (v : Nat) (hv : v < 2 ^ 32) (m : Mem) (vs : List Nat) :
    UEnds ⟨uVersion w v, ⟨.stx, m, vs⟩, [], []⟩ ⟨.ret (), ⟨.stx, m, vs ++ [v]⟩, [], []⟩ := by
  apply UEnds.of_reach
  unfold uVersion
  have : uFeed ⟨.stx, m, vs⟩ (0x56#8 :: uWord v) = some ⟨.stx, m, vs ++ [v]⟩ := by
    have := uWord_val v hv
    simp [uWord] at this
    simp [uWord, uFeed, uServe, this]
  exact uSend_run w hw (fun _ => .ret ()) _ _ _ this

/-! ## Histories -/

/-- Calls of the flash interface. -/
inductive UOp where
  | write (a : Nat) (data : List Byte)
  | read (a n : Nat)
  | erase (a n : Nat)
  | lock

/-- Specification: a call lies within the remote memory. -/
def UOp.Within (size : Nat) : UOp → Prop
  | .write a data => a + data.length ≤ size
  | .read a n => a + n ≤ size
  | .erase a n => a + n ≤ size
  | .lock => True

/-- Specification: the memory after a call. -/
def UOp.apply (m : Mem) : UOp → Mem
  | .write a data => uPut m a data
  | .read _ _ => m
  | .erase a n => fun i => if a ≤ i ∧ i < a + n then 0xFF#8 else m i
  | .lock => m

/-- Specification: what a call returns, and what it stores. -/
def UOp.result (m : Mem) : UOp → Int × List Byte
  | .write _ data => (data.length, [])
  | .read a n => (n, slice m a n)
  | .erase _ _ => (0, [])
  | .lock => (0, [])

/-- The client runs a call. -/
def UOp.run (w : Nat) : UOp → UProc (Int × List Byte)
  | .write a data => (uWrite w a data).bind fun r => .ret (r, [])
  | .read a n => uRead w a n
  | .erase a n => (uErase w a n).bind fun r => .ret (r, [])
  | .lock => (uLock w).bind fun _ => .ret (0, [])

/-- The client runs a sequence of calls and collects the results. -/
def uRunAll (w : Nat) : List UOp → UProc (List (Int × List Byte))
  | [] => .ret []
  | o :: os => (o.run w).bind fun r => (uRunAll w os).bind fun rs => .ret (r :: rs)

/-- Specification of a sequence: the final memory and the results. -/
def uSpecAll (m : Mem) : List UOp → Mem × List (Int × List Byte)
  | [] => (m, [])
  | o :: os => ((uSpecAll (o.apply m) os).1, o.result m :: (uSpecAll (o.apply m) os).2)

theorem uOp_reach {α : Type} (w : Nat) (hw : 0 < w) (o : UOp) (m : Mem) (vs : List Nat) (ho : o.Within uSize)
    (f : Int × List Byte → UProc α) :
    UReach ⟨(o.run w).bind f, ⟨.stx, m, vs⟩, [], []⟩ ⟨f (o.result m), ⟨.stx, o.apply m, vs⟩, [], []⟩ := by
  cases o with
  | write a data =>
    simp only [UOp.run]
    rw [bind_assoc']
    exact uWrite_reach w hw a data m vs ho _
  | read a n => exact uRead_reach w hw a n m vs ho f
  | erase a n =>
    simp only [UOp.run]
    rw [bind_assoc']
    exact uErase_reach w hw a n m vs ho _
  | lock =>
    simp only [UOp.run]
    rw [bind_assoc']
    exact uLock_reach w m vs _

theorem uRunAll_reach {α : Type} (w : Nat) (hw : 0 < w) (vs : List Nat) : ∀ (os : List UOp) (m : Mem) (f : List (Int × List Byte) → UProc α),
    (∀ o ∈ os, o.Within uSize) →
    UReach ⟨(uRunAll w os).bind f, ⟨.stx, m, vs⟩, [], []⟩ ⟨f (uSpecAll m os).2, ⟨.stx, (uSpecAll m os).1, vs⟩, [], []⟩ := by
  intro os
  induction os with
  | nil => intro m f _; exact .rfl' _
  | cons o os ih =>
    intro m f h
    unfold uRunAll
    rw [bind_assoc']
    refine UReach.trans (uOp_reach w hw o m vs (h o (by simp)) _) ?_
    rw [bind_assoc']
    exact ih (o.apply m) _ fun x hx => h x (by simp [hx])

theorem bind_ret {α : Type} (p : UProc α) : p.bind .ret = p := by
  induction p with
  | ret a => rfl
  | tx b k ih => simp only [UProc.bind, ih]
  | rx k ih => simp only [UProc.bind]; congr 1; funext o; exact ih o

/-- **Remote flash**: any sequence of reads, writes, erases, locks and unlocks within the remote memory, with any addresses, lengths
and data and in any interleaving of the two sides, terminates; the remote memory and all returned values and bytes are those of a local
memory; nothing is left on the line. -/
theorem uart_flash_history (w : Nat) (hw : 0 < w) (os : List UOp) (m : Mem) (vs : List Nat) (hin : ∀ o ∈ os, o.Within uSize) :
    UEnds ⟨uRunAll w os, ⟨.stx, m, vs⟩, [], []⟩ ⟨.ret (uSpecAll m os).2, ⟨.stx, (uSpecAll m os).1, vs⟩, [], []⟩ := by
  apply UEnds.of_reach
  have := uRunAll_reach w hw vs os m .ret hin
  rwa [bind_ret] at this

/-! ## Out of range -/

/-- **Rejected reads and erases**: a request that exceeds the remote memory (without 32-bit overflow) changes nothing and is reported to the
caller. -/
theorem uart_out_of_range (w : Nat) (hw : 0 < w) (a n : Nat) (m : Mem) (vs : List Nat) (hout : uSize < a + n) (hov : a + n < 2 ^ 32)
    (hn : 0 < n) :
    UEnds ⟨uRead w a n, ⟨.stx, m, vs⟩, [], []⟩ ⟨.ret (0, [0]), ⟨.stx, m, vs⟩, [], []⟩ ∧
    UEnds ⟨uErase w a n, ⟨.stx, m, vs⟩, [], []⟩ ⟨.ret (-1), ⟨.stx, m, vs⟩, [], []⟩ := by
  constructor
  · apply UEnds.of_reach
    unfold uRead
    obtain ⟨l, b, he, sv1, hf, hs⟩ := uHdr_feed .read a n (by omega) (by omega) m vs
    change uHdr 2 a n = _ at he
    rw [he]
    unfold uDispatch at hs
    rw [if_pos (by rw [Nat.mod_eq_of_lt (by omega)]; omega)] at hs
    refine UReach.trans (uSend_last w hw _ b [] l _ _ _ hf hs) ?_
    simp only [if_true]
    obtain ⟨n, rfl⟩ : ∃ k, n = k + 1 := ⟨n - 1, by omega⟩
    exact .one (.timeout _ _)
  · apply UEnds.of_reach
    unfold uErase
    obtain ⟨l, b, he, sv1, hf, hs⟩ := uHdr_feed .erase a n (by omega) (by omega) m vs
    change uHdr 3 a n = _ at he
    rw [he]
    unfold uDispatch at hs
    rw [if_pos (by rw [Nat.mod_eq_of_lt (by omega)]; omega)] at hs
    refine UReach.trans (uSend_last w hw _ b [] l _ _ _ hf hs) ?_
    simp only [if_true]
    obtain ⟨w, rfl⟩ : ∃ v, w = v + 1 := ⟨w - 1, by omega⟩
    exact .one (.timeout (fun o => UProc.bind _ _) _)

/-- **Finding**: the data of a write that is out of range is not consumed by the server but taken for commands: a rejected write at the very end of
the memory whose data spell an erase command erases the range named in the data, and the write is reported as successful. -/
theorem uart_data_as_command (w : Nat) (hw : 0 < w) (a n : Nat) (m : Mem) (vs : List Nat) (hin : a + n ≤ uSize) :
    UReach ⟨uWrite w uSize (uHdr 3 a n), ⟨.stx, m, vs⟩, [], []⟩
      ⟨.ret 10, ⟨.stx, fun i => if a ≤ i ∧ i < a + n then 0xFF#8 else m i, vs⟩, [], [UACK]⟩ := by
  have hsz : uSize < 2 ^ 31 := by decide
  have hlen : (uHdr 3 a n).length = 10 := by simp [uHdr, uWord]
  unfold uWrite
  obtain ⟨l, b, he, sv1, hf, hs⟩ := uHdr_feed .write uSize (uHdr 3 a n).length (by omega) (by omega) m vs
  change uHdr 1 uSize (uHdr 3 a n).length = _ at he
  rw [he]
  unfold uDispatch at hs
  rw [if_pos (by rw [hlen, Nat.mod_eq_of_lt (by omega)]; omega)] at hs
  refine UReach.trans (uSend_last w hw _ b [] l _ _ _ hf hs) ?_
  simp only [if_true]
  rw [hlen]
  obtain ⟨l, b, he, sv1, hf, hs⟩ := uHdr_feed .erase a n (by omega) (by omega) m vs
  change uHdr 3 a n = _ at he
  rw [he]
  unfold uDispatch at hs
  rw [if_neg (by rw [Nat.mod_eq_of_lt (by omega)]; omega)] at hs
  have hs' : uServe sv1 b = (⟨.stx, fun i => if a ≤ i ∧ i < a + n then 0xFF#8 else m i, vs⟩, [UACK, UACK]) := by
    by_cases hl : n = 0
    · rw [if_pos hl] at hs
      rw [hs]
      congr 2
      funext i
      rw [if_neg (by omega)]
    · rw [if_neg hl] at hs
      dsimp only at hs
      rw [if_neg (by omega)] at hs
      exact hs
  refine UReach.trans (uSend_last w hw _ b [UACK] l _ _ _ hf hs') ?_
  simp only [if_true]
  exact .rfl' _

/-- **Finding**: the range check of the server overflows: a write of two bytes at the last 32-bit address passes it and accesses memory far
outside of the mapped file. -/
theorem uart_range_overflow (w : Nat) (hw : 0 < w) (b0 b1 : Byte) (m : Mem) (vs : List Nat) :
    ∃ sv, sv.loc = .bad ∧ UReach ⟨uWrite w 0xFFFFFFFF [b0, b1], ⟨.stx, m, vs⟩, [], []⟩ ⟨.ret (-1), sv, [], []⟩ := by
  unfold uWrite
  obtain ⟨l, b, he, sv1, hf, hs⟩ := uHdr_feed .write 0xFFFFFFFF 2 (by decide) (by decide) m vs
  change uHdr 1 0xFFFFFFFF [b0, b1].length = _ at he
  rw [he]
  unfold uDispatch at hs
  rw [if_neg (by decide), if_neg (by decide)] at hs
  refine ⟨⟨.bad, m, vs⟩, rfl, UReach.trans (uSend_last w hw _ b [] l _ _ _ hf hs) ?_⟩
  · simp only [if_true, uSend]
    refine UReach.trans (.one (.tx ..)) (UReach.trans (.one (.serve ..)) ?_)
    have : ∀ g, uServe { loc := ULoc.wr 4294967295 2 0, base := m, versions := g } b0 = (⟨.bad, m, g⟩, []) := by
      intro g
      unfold uServe
      dsimp only
      rw [if_pos (by decide)]
    simp only [this]
    obtain ⟨w, rfl⟩ : ∃ v, w = v + 1 := ⟨w - 1, by omega⟩
    exact .one (.timeout (fun o => UProc.bind _ _) _)

/-! ## Example -/

/-- A write, a read that overlaps it, an erase and another read. -/
example :
    let os := [UOp.lock, .write 5 [1, 2, 3], .read 4 5, .erase 6 1, .read 6 2]
    (∀ o ∈ os, o.Within uSize) ∧ (uSpecAll (fun _ => 0) os).2 = [(0, []), (3, []), (5, [0, 1, 2, 3, 0]), (0, []), (2, [0xFF, 3])] := by
  constructor
  · intro o ho
    simp only [List.mem_cons, List.not_mem_nil, or_false] at ho
    rcases ho with rfl | rfl | rfl | rfl | rfl <;> simp [UOp.Within, uSize]
  · decide

end Verif
