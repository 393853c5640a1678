import Verif.ImageThms

/-!
# The key tool: `/repo/tools/keytools/keygen.c` (C72)

From the command line to the generated table of public keys. Strings are lists of characters. The generation of keys and the decoding of key files by
wolfCrypt are parameters. The confirmation asked for before an existing file is overwritten (1149-1169, 1457-1475) is taken as given.
-/

namespace Verif

namespace KeyTool

/-- A C string. -/
abbrev Str := List Char

/-! ### Lists of partition ids -/

/-- `isspace` of the C locale, used by `strtol`, `/repo/tools/keytools/keygen.c:1334`. -/
def isSpace (c : Char) : Bool := c.toNat == 32 || (decide (9 ≤ c.toNat) && decide (c.toNat ≤ 13))

/-- A decimal digit, for `strtol`, `/repo/tools/keytools/keygen.c:1334`. -/
def isDigit (c : Char) : Bool := decide (48 ≤ c.toNat) && decide (c.toNat ≤ 57)

/-- The value of the leading digits, for `strtol`, `/repo/tools/keytools/keygen.c:1334`. -/
def digits : Nat → Str → Nat
  | acc, [] => acc
  | acc, c :: r => if isDigit c then digits (10 * acc + (c.toNat - 48)) r else acc

/-- `strtol(p, NULL, 10)` of the C library with 64-bit `long`, `/repo/tools/keytools/keygen.c:1334`: white space, sign, digits, clamped; 0 if there
are no digits. -/
def strtol (s : Str) : Int :=
  match s.dropWhile isSpace with
  | [] => 0
  | c :: r =>
    if c = '-' then max (-(digits 0 r : Int)) (-2 ^ 63)
    else if c = '+' then min (digits 0 r) (2 ^ 63 - 1)
    else min (digits 0 (c :: r)) (2 ^ 63 - 1)

/-- The conversion to `uint32_t`, `/repo/tools/keytools/keygen.c:1334`. -/
def toU32 (x : Int) : Nat := (x % 4294967296).toNat

/-- The loop of `parse_id`, `/repo/tools/keytools/keygen.c:1330-1346`, from the text `s` on. (The check for -1 is covered by that for 31. `1 << 31` is
taken as the bit, as the compilers do.) -/
def parseGo (mask : BitVec 32) (s : Str) : BitVec 32 :=
  if toU32 (strtol (s.takeWhile (· != ','))) > 31 then 0#32
  else
    if h : s.dropWhile (· != ',') = [] then mask ||| (1#32 <<< toU32 (strtol (s.takeWhile (· != ','))))
    else if (s.dropWhile (· != ',')).tail = [] then mask ||| (1#32 <<< toU32 (strtol (s.takeWhile (· != ','))))
    else parseGo (mask ||| (1#32 <<< toU32 (strtol (s.takeWhile (· != ','))))) (s.dropWhile (· != ',')).tail
termination_by s.length
decreasing_by
  have h1 : (s.dropWhile (· != ',')).length ≤ s.length := (List.dropWhile_suffix _).length_le
  have h2 : 0 < (s.dropWhile (· != ',')).length := List.length_pos_iff.mpr h
  rw [List.length_tail]
  omega

/-- `parse_id`, `/repo/tools/keytools/keygen.c:1323-1348`. -/
def parseId (s : Str) : BitVec 32 := parseGo 0#32 s

/-! ### The command line -/

/-- A key asked for on the command line: `generated_keypairs*`, `imported_pubkeys*`, `/repo/tools/keytools/keygen.c:360-372`. -/
structure Key where
  file : Str
  type : Nat
  mask : BitVec 32
deriving DecidableEq

/-- The variables of `main`, `/repo/tools/keytools/keygen.c:1350-1356`, and the globals 111-123, 360-372. -/
structure Opts where
  type : Nat := 0
  mask : BitVec 32 := 0xFFFFFFFF#32
  force : Bool := false
  der : Bool := false
  noLocal : Bool := false
  exportPub : Bool := false
  imported : List Key := []
  generated : List Key := []
  dir : Option Str := none
deriving DecidableEq

/-- Ends of the program: usage message and exit code 125; undefined behaviour (a missing argument, an array that overflows); options read. -/
inductive Parsed where
  | usage
  | bad
  | opts (o : Opts)
deriving DecidableEq

/-- The options that set the algorithm, `/repo/tools/keytools/keygen.c:1368-1405`, with the constants `KEYGEN_*` (98-109). -/
def algs : List (Str × Nat) :=
  [("--ed25519".toList, 1), ("--ed448".toList, 5), ("--ecc256".toList, 2), ("--ecc384".toList, 6), ("--ecc521".toList, 7), ("--rsa2048".toList, 3),
   ("--rsa3072".toList, 8), ("--rsa4096".toList, 4), ("--lms".toList, 9), ("--xmss".toList, 10), ("--ml_dsa".toList, 11)]

/-- The loop over the arguments, `/repo/tools/keytools/keygen.c:1366-1455`, from the arguments `l` on. `MAX_PUBKEYS` and `MAX_KEYPAIRS` (360, 367) are
not checked by the code; an argument that is missing is a null pointer; the names in the buffers of `PATH_MAX` (4096) bytes are not checked. -/
def args (o : Opts) : List Str → Parsed
  | [] => .opts o
  | a :: r =>
    match algs.lookup a with
    | some t => args { o with type := t } r
    | none =>
      if a = "--force".toList then args { o with force := true } r
      else if a = "--der".toList then args { o with der := true } r
      else if a = "--nolocalkeys".toList then args { o with noLocal := true } r
      else if a = "-g".toList then
        match r with
        | [] => .bad
        | f :: r => if o.generated.length < 64 then args { o with generated := o.generated ++ [⟨f, o.type, o.mask⟩] } r else .bad
      else if a = "--exportpubkey".toList then
        if r = [] then .bad else args { o with exportPub := true } r
      else if a = "-i".toList then
        match r with
        | [] => .bad
        | f :: r => if o.imported.length < 64 then args { o with imported := o.imported ++ [⟨f, o.type, o.mask⟩] } r else .bad
      else if a = "-keystoreDir".toList then
        match r with
        | [] => .bad
        | [d] => if d.length + 14 ≤ 4096 then .opts { o with dir := some d } else .bad
        | d :: _ :: r => if d.length + 14 ≤ 4096 then args { o with dir := some d } r else .bad
      else if a = "--id".toList then
        match r with
        | [] => .bad
        | t :: r => if parseId t = 0#32 then .usage else args { o with mask := parseId t } r
      else .usage

/-- `main` up to the check of the algorithm, `/repo/tools/keytools/keygen.c:1350-1456`. `none`: the program ends without writing a table. -/
def main (argv : List Str) : Parsed := if argv = [] then .usage else args {} argv

/-! ### The table -/

/-- An entry of the table, `struct keystore_slot`, `/repo/include/keystore.h:43-49`. -/
structure Entry where
  id : Nat
  type : Nat
  mask : BitVec 32
  size : Nat
  key : List Byte
deriving DecidableEq

/-- The value of the name `KType[ktype]` printed by `keystore_add`, `/repo/tools/keytools/keygen.c:309-322`, with `AUTH_KEY_*` of
`/repo/include/wolfboot/wolfboot.h:85-97`. -/
def authKey (ktype : Nat) : Nat := if ktype = 10 then 0x10 else if ktype = 11 then 0x11 else ktype

/-- The entry printed to the C file by `keystore_add`, `/repo/tools/keytools/keygen.c:492-505`. -/
def entry (noLocal : Bool) (i : Nat) (k : Nat × BitVec 32 × List Byte) : Entry :=
  ⟨i, authKey k.1, k.2.1, k.2.2.length, if noLocal then List.replicate k.2.2.length 0#8 else k.2.2⟩

/-- The keys in the order in which `keystore_add` is called, `/repo/tools/keytools/keygen.c:1491-1498`. `imp` is the result of `key_import`, `none` if it
ends the program; `gen` is the public key made by `key_generate`, which does nothing without an algorithm (1174-1236). -/
def keyList (imp : Nat → Str → Option (List Byte)) (gen : Nat → Str → List Byte) (o : Opts) : Option (List (Nat × BitVec 32 × List Byte)) :=
  (o.imported.mapM fun k => (imp k.type k.file).map fun b => (k.type, k.mask, b)).map
    (· ++ (o.generated.filter (·.type != 0)).map fun k => (k.type, k.mask, gen k.type k.file))

/-- The array `PubKeys[NUM_PUBKEYS]`, `/repo/tools/keytools/keygen.c:1488-1500`: the entries printed, and zeros for those of `n_pubkeys` for which none
was printed. -/
def pubKeys (imp : Nat → Str → Option (List Byte)) (gen : Nat → Str → List Byte) (o : Opts) : Option (List Entry) :=
  (keyList imp gen o).map fun l =>
    l.mapIdx (entry o.noLocal) ++ List.replicate (o.imported.length + o.generated.length - l.length) ⟨0, 0, 0#32, 0, []⟩

/-- The program: arguments, then the table, `/repo/tools/keytools/keygen.c:1350-1507`. `none`: no table is written (usage, no algorithm at the end of
the command line, a key that cannot be imported), or undefined behaviour. -/
def keygen (imp : Nat → Str → Option (List Byte)) (gen : Nat → Str → List Byte) (argv : List Str) : Option (List Entry) :=
  match main argv with
  | .opts o => if o.type = 0 then none else pubKeys imp gen o
  | _ => none

/-! ### Access by the bootloader -/

/-- Results of the accessors: outside of the array; error; value. -/
inductive Acc (α : Type) where
  | oob
  | err
  | val (a : α)
deriving DecidableEq

/-- `keystore_get_buffer`, `keystore_get_size`, `keystore_get_mask` of the generated file, `/repo/tools/keytools/keygen.c:228-274`: the entry they take
their result from; the error values are a null pointer, -1 and 0. -/
def get (ks : List Entry) (id : Int) : Acc Entry :=
  if (ks.length : Int) ≤ id then .err
  else if id < 0 then .oob
  else match ks[id.toNat]? with
    | some s => .val s
    | none => .oob

/-- `keystore_get_key_type` of the generated file, `/repo/tools/keytools/keygen.c:276-279`. -/
def getType (ks : List Entry) (id : Int) : Acc Nat :=
  if id < 0 then .oob
  else match ks[id.toNat]? with
    | some s => .val s.type
    | none => .oob

/-- The keys as `image.c` sees them: `keystore_get_size` bytes from `keystore_get_buffer` on (`/repo/src/image.c:891-905`). -/
def slots (ks : List Entry) : List Slot := ks.map fun s => ⟨s.key.take s.size, s.mask⟩

/-! ### Specification -/

/-- A decimal number. -/
def dec (n : Nat) : Str := if h : n < 10 then [Char.ofNat (48 + n)] else dec (n / 10) ++ [Char.ofNat (48 + n % 10)]
termination_by n

/-- Numbers separated by commas. -/
def listText : List Nat → Str
  | [] => []
  | [n] => dec n
  | n :: r => dec n ++ ',' :: listText r

/-- The options of the command line. -/
inductive Opt where
  | alg (name : Str) (t : Nat)
  | force
  | der
  | noLocal
  | gen (file : Str)
  | imp (file : Str)
  | ids (ns : List Nat)

/-- The arguments for an option. -/
def Opt.text : Opt → List Str
  | .alg name _ => [name]
  | .force => ["--force".toList]
  | .der => ["--der".toList]
  | .noLocal => ["--nolocalkeys".toList]
  | .gen f => ["-g".toList, f]
  | .imp f => ["-i".toList, f]
  | .ids ns => ["--id".toList, listText ns]

/-- The option can be understood: the name of an algorithm, a list of ids below 32. -/
def Opt.OK : Opt → Prop
  | .alg name t => (name, t) ∈ algs
  | .ids ns => ns ≠ [] ∧ ∀ n ∈ ns, n < 32
  | _ => True

/-- A key that the user asks for. -/
structure Ask where
  /-- An existing key, to be imported. -/
  old : Bool
  file : Str
  /-- The algorithm named last before the key; 0 if there is none. -/
  alg : Nat
  /-- The ids named last before the key; `none`: all. -/
  ids : Option (List Nat)

/-- The keys asked for by a command line, in its order. -/
def asked (t : Nat) (ids : Option (List Nat)) : List Opt → List Ask
  | [] => []
  | .alg _ t :: r => asked t ids r
  | .ids ns :: r => asked t (some ns) r
  | .gen f :: r => ⟨false, f, t, ids⟩ :: asked t ids r
  | .imp f :: r => ⟨true, f, t, ids⟩ :: asked t ids r
  | _ :: r => asked t ids r

/-- The key may sign for partition `p`. -/
def Ask.permits (a : Ask) (p : Nat) : Prop := ∀ ns, a.ids = some ns → p ∈ ns

/-! ### Proofs: lists of ids -/

theorem chr_toNat {n : Nat} (h : n < 10) : (Char.ofNat (48 + n)).toNat = 48 + n := by
  have : n = 0 ∨ n = 1 ∨ n = 2 ∨ n = 3 ∨ n = 4 ∨ n = 5 ∨ n = 6 ∨ n = 7 ∨ n = 8 ∨ n = 9 := by omega
  rcases this with h | h | h | h | h | h | h | h | h | h <;> subst h <;> decide

theorem chr_digit {n : Nat} (h : n < 10) : isDigit (Char.ofNat (48 + n)) = true := by
  unfold isDigit
  rw [chr_toNat h]
  simp
  omega

theorem digits_append (l : Str) (c : Char) (hl : ∀ x ∈ l, isDigit x = true) (hc : isDigit c = true) (acc : Nat) :
    digits acc (l ++ [c]) = 10 * digits acc l + (c.toNat - 48) := by
  induction l generalizing acc with
  | nil => simp [digits, hc]
  | cons x r ih =>
    have hx := hl x (by simp)
    rw [List.cons_append, digits, if_pos hx, digits, if_pos hx]
    exact ih (fun y hy => hl y (by simp [hy])) _

theorem dec_digits (n : Nat) : (∀ x ∈ dec n, isDigit x = true) ∧ dec n ≠ [] ∧ digits 0 (dec n) = n := by
  induction n using Nat.strongRecOn with
  | ind n ih =>
    rw [dec]
    by_cases h : n < 10
    · rw [dif_pos h]
      refine ⟨?_, by simp, ?_⟩
      · intro x hx
        rw [List.mem_singleton] at hx
        subst hx
        exact chr_digit h
      · simp [digits, chr_digit h, chr_toNat h]
    · rw [dif_neg h]
      obtain ⟨h1, h2, h3⟩ := ih (n / 10) (by omega)
      refine ⟨?_, by simp, ?_⟩
      · intro x hx
        rw [List.mem_append, List.mem_singleton] at hx
        rcases hx with hx | hx
        · exact h1 x hx
        · subst hx
          exact chr_digit (by omega)
      · rw [digits_append _ _ h1 (chr_digit (by omega)), h3, chr_toNat (by omega)]
        omega

theorem strtol_dec {n : Nat} (h : n < 2 ^ 63) : strtol (dec n) = n := by
  obtain ⟨h1, h2, h3⟩ := dec_digits n
  unfold strtol
  cases hd : dec n with
  | nil => exact absurd hd h2
  | cons c r =>
    have hc := h1 c (by rw [hd]; simp)
    have hs : isSpace c = false := by
      unfold isDigit at hc
      unfold isSpace
      simp at hc ⊢
      omega
    rw [List.dropWhile_cons_of_neg (by simp [hs])]
    dsimp only
    rw [if_neg, if_neg, ← hd, h3]
    · omega
    · rintro rfl
      revert hc
      decide
    · rintro rfl
      revert hc
      decide

theorem dec_no_comma (n : Nat) : ∀ x ∈ dec n, (x != ',') = true := by
  intro x hx
  have := (dec_digits n).1 x hx
  by_cases h : x = ','
  · subst h
    revert this
    decide
  · simp [h]

theorem takeWhile_dec (n : Nat) (r : Str) : (dec n ++ ',' :: r).takeWhile (· != ',') = dec n := by
  rw [List.takeWhile_append_of_pos (dec_no_comma n), List.takeWhile_cons_of_neg (by simp), List.append_nil]

theorem dropWhile_dec (n : Nat) (r : Str) : (dec n ++ ',' :: r).dropWhile (· != ',') = ',' :: r := by
  rw [List.dropWhile_append_of_pos (dec_no_comma n), List.dropWhile_cons_of_neg (by simp)]

theorem takeWhile_all (n : Nat) : (dec n).takeWhile (· != ',') = dec n := by
  have := List.takeWhile_append_of_pos (l₂ := []) (dec_no_comma n)
  simpa using this

theorem dropWhile_all (n : Nat) : (dec n).dropWhile (· != ',') = [] := by
  have := List.dropWhile_append_of_pos (l₂ := []) (dec_no_comma n)
  simpa using this

theorem toU32_dec {n : Nat} (h : n < 2 ^ 63) : toU32 (strtol (dec n)) = n % 4294967296 := by
  rw [strtol_dec h]
  unfold toU32
  omega

theorem listText_ne {ns : List Nat} (h : ns ≠ []) : listText ns ≠ [] := by
  match ns, h with
  | [n], _ => exact (dec_digits n).2.1
  | n :: m :: r, _ => simp [listText]

/-- The bits of a list of ids. -/
def bits (ns : List Nat) : BitVec 32 := ns.foldl (fun m n => m ||| (1#32 <<< n)) 0#32

theorem parseGo_list (ns : List Nat) (hne : ns ≠ []) (h : ∀ n ∈ ns, n < 2 ^ 32) (mask : BitVec 32) :
    parseGo mask (listText ns) = if ∀ n ∈ ns, n < 32 then ns.foldl (fun m n => m ||| (1#32 <<< n)) mask else 0#32 := by
  induction ns generalizing mask with
  | nil => exact absurd rfl hne
  | cons n r ih =>
    have hn := h n (by simp)
    cases r with
    | nil =>
      unfold listText
      rw [parseGo, takeWhile_all, toU32_dec (by omega), Nat.mod_eq_of_lt (by omega), dropWhile_all]
      by_cases h1 : n < 32
      · rw [if_neg (by omega), dif_pos rfl, if_pos (by simpa using h1)]
        rfl
      · rw [if_pos (by omega), if_neg (by simpa using h1)]
    | cons m r =>
      have hl : listText (n :: m :: r) = dec n ++ ',' :: listText (m :: r) := rfl
      rw [hl, parseGo, takeWhile_dec, toU32_dec (by omega), Nat.mod_eq_of_lt (by omega), dropWhile_dec]
      by_cases h1 : n < 32
      · rw [if_neg (by omega), dif_neg (by simp), List.tail_cons, if_neg (listText_ne (by simp)), ih (by simp) (fun x hx => h x (by simp [hx]))]
        by_cases h2 : ∀ x ∈ m :: r, x < 32
        · rw [if_pos h2, if_pos]
          · rfl
          · intro x hx
            rw [List.mem_cons] at hx
            rcases hx with hx | hx
            · omega
            · exact h2 x hx
        · rw [if_neg h2, if_neg]
          exact fun h3 => h2 fun x hx => h3 x (List.mem_cons_of_mem _ hx)
      · rw [if_pos (by omega), if_neg]
        exact fun h3 => h1 (h3 n (by simp))

theorem fold_bits (ns : List Nat) (mask : BitVec 32) (p : Nat) (hp : p < 32) :
    (ns.foldl (fun m n => m ||| (1#32 <<< n)) mask).getLsbD p = true ↔ mask.getLsbD p = true ∨ p ∈ ns := by
  induction ns generalizing mask with
  | nil => simp
  | cons n r ih =>
    rw [List.foldl_cons, ih, BitVec.getLsbD_or, Bool.or_eq_true, BitVec.getLsbD_shiftLeft, List.mem_cons, or_assoc]
    have : (decide (p < 32) && !decide (p < n) && (1#32).getLsbD (p - n)) = true ↔ p = n := by
      simp only [hp, decide_true, Bool.true_and, Bool.and_eq_true, Bool.not_eq_true', decide_eq_false_iff_not, BitVec.getLsbD_one]
      simp
      omega
    rw [this]

/-- **Lists of ids**: a list of numbers separated by commas gives exactly the partitions of the list if all are below 32; with a number from 32 to
2³² - 1 the list is refused. -/
theorem parse_id_list (ns : List Nat) (hne : ns ≠ []) (h : ∀ n ∈ ns, n < 2 ^ 32) :
    ((∀ n ∈ ns, n < 32) → parseId (listText ns) ≠ 0#32 ∧ ∀ p, p < 32 → ((parseId (listText ns)).getLsbD p = true ↔ p ∈ ns)) ∧
    ((∃ n ∈ ns, 32 ≤ n) → parseId (listText ns) = 0#32) := by
  unfold parseId
  rw [parseGo_list ns hne h]
  constructor
  · intro h1
    rw [if_pos h1]
    have hb : ∀ p, p < 32 → ((ns.foldl (fun m n => m ||| (1#32 <<< n)) 0#32).getLsbD p = true ↔ p ∈ ns) := by
      intro p hp
      rw [fold_bits ns _ p hp]
      simp
    refine ⟨fun h0 => ?_, hb⟩
    cases ns with
    | nil => exact hne rfl
    | cons n r =>
      have := (hb n (h1 n (by simp))).mpr (by simp)
      rw [h0] at this
      simp at this
  · rintro ⟨n, hn, h1⟩
    rw [if_neg]
    intro h2
    have := h2 n hn
    omega

theorem parseId_single {s : Str} (hs : ∀ c ∈ s, (c != ',') = true) :
    parseId s = if toU32 (strtol s) > 31 then 0#32 else 1#32 <<< toU32 (strtol s) := by
  unfold parseId
  have ht : s.takeWhile (· != ',') = s := by
    have := List.takeWhile_append_of_pos (l₂ := []) hs
    simpa using this
  have hd : s.dropWhile (· != ',') = [] := by
    have := List.dropWhile_append_of_pos (l₂ := []) hs
    simpa using this
  rw [parseGo, ht, hd, dif_pos rfl]
  simp

/-- **Finding**: any text that starts with neither a digit nor a sign nor white space, such as the name of a partition, is taken as partition 0: the key
may then sign the bootloader itself, and nothing else. -/
theorem id_name_means_bootloader (c : Char) (s : Str) (hc : isDigit c = false) (h1 : c ≠ '-') (h2 : c ≠ '+') (h3 : isSpace c = false)
    (hs : ∀ x ∈ c :: s, x ≠ ',') : parseId (c :: s) = 1#32 := by
  rw [parseId_single (fun x hx => by simpa using hs x hx)]
  have : strtol (c :: s) = 0 := by
    unfold strtol
    rw [List.dropWhile_cons_of_neg (by simp [h3])]
    dsimp only
    rw [if_neg h1, if_neg h2, digits, if_neg (by simp [hc])]
    decide
  rw [this]
  decide

/-- **Finding**: numbers are reduced modulo 2³², so that 4294967296 + n is accepted as partition n. -/
theorem id_wraps (n : Nat) (h : n < 32) : parseId (dec (4294967296 + n)) = 1#32 <<< n := by
  rw [parseId_single (dec_no_comma _), toU32_dec (by omega), show (4294967296 + n) % 4294967296 = n by omega, if_neg (by omega)]

/-! ### Proofs: the command line -/

/-- The mask that stands for a choice of ids. -/
def maskOf : Option (List Nat) → BitVec 32
  | none => 0xFFFFFFFF#32
  | some ns => bits ns

theorem maskOf_permits (a : Ask) {p : Nat} (hp : p < 32) : (maskOf a.ids).getLsbD p = true ↔ a.permits p := by
  unfold Ask.permits
  cases h : a.ids with
  | none =>
    simp only [reduceCtorEq, false_implies, implies_true, iff_true]
    unfold maskOf
    rw [show (0xFFFFFFFF#32) = BitVec.allOnes 32 by decide, BitVec.getLsbD_allOnes]
    simpa using hp
  | some ns =>
    unfold maskOf bits
    rw [fold_bits ns _ p hp]
    simp

/-- What the tool records for a key. -/
def Ask.key (a : Ask) : Key := ⟨a.file, a.alg, maskOf a.ids⟩

/-- The algorithm named last. -/
def lastAlg (t : Nat) : List Opt → Nat
  | [] => t
  | .alg _ t :: r => lastAlg t r
  | _ :: r => lastAlg t r

/-- Keys in the table are to be zeroed. -/
def zeroed : List Opt → Bool
  | [] => false
  | .noLocal :: _ => true
  | _ :: r => zeroed r

theorem alg_lookup {name : Str} {t : Nat} (h : (name, t) ∈ algs) : algs.lookup name = some t := by
  simp only [algs, List.mem_cons, Prod.mk.injEq, List.not_mem_nil, or_false] at h
  rcases h with ⟨h, rfl⟩ | ⟨h, rfl⟩ | ⟨h, rfl⟩ | ⟨h, rfl⟩ | ⟨h, rfl⟩ | ⟨h, rfl⟩ | ⟨h, rfl⟩ | ⟨h, rfl⟩ | ⟨h, rfl⟩ | ⟨h, rfl⟩ | ⟨h, rfl⟩ <;>
    (subst h; decide +kernel)

theorem args_alg {o : Opts} {name : Str} {t : Nat} (h : (name, t) ∈ algs) (r : List Str) : args o (name :: r) = args { o with type := t } r := by
  conv => lhs; unfold args
  rw [alg_lookup h]

theorem args_force (o : Opts) (r : List Str) : args o ("--force".toList :: r) = args { o with force := true } r := by
  conv => lhs; unfold args
  rw [show algs.lookup "--force".toList = none by decide +kernel]
  dsimp only
  rw [if_pos rfl]

theorem args_der (o : Opts) (r : List Str) : args o ("--der".toList :: r) = args { o with der := true } r := by
  conv => lhs; unfold args
  rw [show algs.lookup "--der".toList = none by decide +kernel]
  dsimp only
  rw [if_neg (show ¬ "--der".toList = "--force".toList by decide +kernel)]
  rw [if_pos rfl]

theorem args_noLocal (o : Opts) (r : List Str) : args o ("--nolocalkeys".toList :: r) = args { o with noLocal := true } r := by
  conv => lhs; unfold args
  rw [show algs.lookup "--nolocalkeys".toList = none by decide +kernel]
  dsimp only
  rw [if_neg (show ¬ "--nolocalkeys".toList = "--force".toList by decide +kernel)]
  rw [if_neg (show ¬ "--nolocalkeys".toList = "--der".toList by decide +kernel)]
  rw [if_pos rfl]

theorem args_generated (o : Opts) (f : Str) (r : List Str) :
    args o ("-g".toList :: f :: r) = if o.generated.length < 64 then args { o with generated := o.generated ++ [⟨f, o.type, o.mask⟩] } r else .bad := by
  conv => lhs; unfold args
  rw [show algs.lookup "-g".toList = none by decide +kernel]
  dsimp only
  rw [if_neg (show ¬ "-g".toList = "--force".toList by decide +kernel)]
  rw [if_neg (show ¬ "-g".toList = "--der".toList by decide +kernel)]
  rw [if_neg (show ¬ "-g".toList = "--nolocalkeys".toList by decide +kernel)]
  rw [if_pos rfl]

theorem args_imported (o : Opts) (f : Str) (r : List Str) :
    args o ("-i".toList :: f :: r) = if o.imported.length < 64 then args { o with imported := o.imported ++ [⟨f, o.type, o.mask⟩] } r else .bad := by
  conv => lhs; unfold args
  rw [show algs.lookup "-i".toList = none by decide +kernel]
  dsimp only
  rw [if_neg (show ¬ "-i".toList = "--force".toList by decide +kernel)]
  rw [if_neg (show ¬ "-i".toList = "--der".toList by decide +kernel)]
  rw [if_neg (show ¬ "-i".toList = "--nolocalkeys".toList by decide +kernel)]
  rw [if_neg (show ¬ "-i".toList = "-g".toList by decide +kernel)]
  rw [if_neg (show ¬ "-i".toList = "--exportpubkey".toList by decide +kernel)]
  rw [if_pos rfl]

theorem args_id (o : Opts) (t : Str) (r : List Str) :
    args o ("--id".toList :: t :: r) = if parseId t = 0#32 then .usage else args { o with mask := parseId t } r := by
  conv => lhs; unfold args
  rw [show algs.lookup "--id".toList = none by decide +kernel]
  dsimp only
  rw [if_neg (show ¬ "--id".toList = "--force".toList by decide +kernel)]
  rw [if_neg (show ¬ "--id".toList = "--der".toList by decide +kernel)]
  rw [if_neg (show ¬ "--id".toList = "--nolocalkeys".toList by decide +kernel)]
  rw [if_neg (show ¬ "--id".toList = "-g".toList by decide +kernel)]
  rw [if_neg (show ¬ "--id".toList = "--exportpubkey".toList by decide +kernel)]
  rw [if_neg (show ¬ "--id".toList = "-i".toList by decide +kernel)]
  rw [if_neg (show ¬ "--id".toList = "-keystoreDir".toList by decide +kernel)]
  rw [if_pos rfl]

theorem args_dir (o : Opts) (d x : Str) (r : List Str) :
    args o ("-keystoreDir".toList :: d :: x :: r) = if d.length + 14 ≤ 4096 then args { o with dir := some d } r else .bad := by
  conv => lhs; unfold args
  rw [show algs.lookup "-keystoreDir".toList = none by decide +kernel]
  dsimp only
  rw [if_neg (show ¬ "-keystoreDir".toList = "--force".toList by decide +kernel)]
  rw [if_neg (show ¬ "-keystoreDir".toList = "--der".toList by decide +kernel)]
  rw [if_neg (show ¬ "-keystoreDir".toList = "--nolocalkeys".toList by decide +kernel)]
  rw [if_neg (show ¬ "-keystoreDir".toList = "-g".toList by decide +kernel)]
  rw [if_neg (show ¬ "-keystoreDir".toList = "--exportpubkey".toList by decide +kernel)]
  rw [if_neg (show ¬ "-keystoreDir".toList = "-i".toList by decide +kernel)]
  rw [if_pos rfl]

/-- **Arguments**: every command line of valid options with at most 64 keys to import and 64 to generate is understood: each key gets the algorithm
and the ids named last before it. -/
theorem args_text (l : List Opt) (ids : Option (List Nat)) (o : Opts) (hok : ∀ x ∈ l, x.OK) (hm : o.mask = maskOf ids)
    (hi : o.imported.length + ((asked o.type ids l).filter (·.old)).length ≤ 64)
    (hg : o.generated.length + ((asked o.type ids l).filter (!·.old)).length ≤ 64) :
    ∃ o', args o (l.flatMap Opt.text) = .opts o' ∧ o'.type = lastAlg o.type l ∧ o'.noLocal = (o.noLocal || zeroed l) ∧
      o'.imported = o.imported ++ ((asked o.type ids l).filter (·.old)).map Ask.key ∧
      o'.generated = o.generated ++ ((asked o.type ids l).filter (!·.old)).map Ask.key := by
  induction l generalizing ids o with
  | nil => exact ⟨o, by simp [args, lastAlg, zeroed, asked]⟩
  | cons x r ih =>
    have hx := hok x (by simp)
    have hr : ∀ y ∈ r, y.OK := fun y hy => hok y (by simp [hy])
    cases x with
    | alg name t =>
      simp only [List.flatMap_cons, Opt.text, List.singleton_append, args_alg hx, lastAlg, zeroed, asked] at hi hg ⊢
      exact ih ids { o with type := t } hr hm hi hg
    | force =>
      simp only [List.flatMap_cons, Opt.text, List.singleton_append, args_force, lastAlg, zeroed, asked] at hi hg ⊢
      exact ih ids { o with force := true } hr hm hi hg
    | der =>
      simp only [List.flatMap_cons, Opt.text, List.singleton_append, args_der, lastAlg, zeroed, asked] at hi hg ⊢
      exact ih ids { o with der := true } hr hm hi hg
    | noLocal =>
      simp only [List.flatMap_cons, Opt.text, List.singleton_append, args_noLocal, lastAlg, zeroed, asked] at hi hg ⊢
      obtain ⟨o', h1, h2, h3, h4, h5⟩ := ih ids { o with noLocal := true } hr hm hi hg
      exact ⟨o', h1, h2, by rw [h3]; simp, h4, h5⟩
    | gen f =>
      simp only [asked, List.filter_cons, Bool.not_false, if_true, Bool.false_eq_true, if_false, List.length_cons] at hi hg
      simp only [List.flatMap_cons, Opt.text, List.cons_append, List.nil_append, args_generated, lastAlg, zeroed, asked]
      rw [if_pos (by omega)]
      obtain ⟨o', h1, h2, h3, h4, h5⟩ := ih ids { o with generated := o.generated ++ [⟨f, o.type, o.mask⟩] } hr hm hi
        (by dsimp only; rw [List.length_append, List.length_singleton]; omega)
      refine ⟨o', h1, h2, h3, ?_, ?_⟩
      · rw [h4]; simp
      · rw [h5]; simp [Ask.key, hm]
    | imp f =>
      simp only [asked, List.filter_cons, Bool.not_true, if_true, Bool.false_eq_true, if_false, List.length_cons] at hi hg
      simp only [List.flatMap_cons, Opt.text, List.cons_append, List.nil_append, args_imported, lastAlg, zeroed, asked]
      rw [if_pos (by omega)]
      obtain ⟨o', h1, h2, h3, h4, h5⟩ := ih ids { o with imported := o.imported ++ [⟨f, o.type, o.mask⟩] } hr hm
        (by dsimp only; rw [List.length_append, List.length_singleton]; omega) hg
      refine ⟨o', h1, h2, h3, ?_, ?_⟩
      · rw [h4]; simp [Ask.key, hm]
      · rw [h5]; simp
    | ids ns =>
      have hlt : ∀ n ∈ ns, n < 2 ^ 32 := fun n hn => by have := hx.2 n hn; omega
      have hp : parseId (listText ns) = bits ns := by
        unfold parseId bits
        rw [parseGo_list ns hx.1 hlt, if_pos hx.2]
      have h0 := ((parse_id_list ns hx.1 hlt).1 hx.2).1
      simp only [List.flatMap_cons, Opt.text, List.cons_append, List.nil_append, args_id, lastAlg, zeroed, asked] at hi hg ⊢
      rw [if_neg h0]
      exact ih (some ns) { o with mask := parseId (listText ns) } hr hp hi hg

/-- **Finding**: the argument after the directory is skipped without a message: with `-keystoreDir`, the option that follows has no effect. -/
theorem dir_skips_option (o : Opts) (d x y : Str) (r : List Str) :
    args o ("-keystoreDir".toList :: d :: x :: r) = args o ("-keystoreDir".toList :: d :: y :: r) := by
  rw [args_dir, args_dir]

/-- **Finding**: `--exportpubkey` looks at the argument that follows, as if it were the name of a file; as the last argument, it is a null pointer. -/
theorem args_export (o : Opts) (r : List Str) :
    args o ("--exportpubkey".toList :: r) = if r = [] then .bad else args { o with exportPub := true } r := by
  conv => lhs; unfold args
  rw [show algs.lookup "--exportpubkey".toList = none by decide +kernel]
  dsimp only
  rw [if_neg (show ¬ "--exportpubkey".toList = "--force".toList by decide +kernel)]
  rw [if_neg (show ¬ "--exportpubkey".toList = "--der".toList by decide +kernel)]
  rw [if_neg (show ¬ "--exportpubkey".toList = "--nolocalkeys".toList by decide +kernel)]
  rw [if_neg (show ¬ "--exportpubkey".toList = "-g".toList by decide +kernel)]
  rw [if_pos rfl]

/-! ### Proofs: the table -/

/-- The public key that belongs to what was asked for: read from the file, or made. -/
def material (imp : Nat → Str → Option (List Byte)) (gen : Nat → Str → List Byte) (a : Ask) : Option (List Byte) :=
  if a.old then imp a.alg a.file else some (gen a.alg a.file)

/-- The image is signed over `digest`, for partition `part`, by one of the keys asked for, and this key may sign for the partition. The tag `hintTag` names
the key by its hash. -/
def SignedByAsked (k : ImgCfg) (mat : Ask → Option (List Byte)) (l : List Ask) (m : Mem) (digest : List Byte) (part hintTag sigTag sz : Nat)
    (vf : List Byte → List Byte → List Byte → Bool) : Prop :=
  ∃ a ∈ l, ∃ b, mat a = some b ∧ a.permits part ∧
    (∃ hoff, findHdr m k.H hintTag = .found hoff k.dlen ∧ slice m hoff k.dlen = k.hash b) ∧
    ∃ soff slen, findHdr m k.H sigTag = .found soff slen ∧ vf b digest (slice m soff sz) = true

/-- The image is authentic with respect to the keys asked for. -/
def AuthenticAsked (k : ImgCfg) (mat : Ask → Option (List Byte)) (l : List Ask) (m : Mem) (digest : List Byte) : Prop :=
  ∃ toff, findHdr m k.H HDR_IMG_TYPE = .found toff 2 ∧ le16 m toff / 256 = k.authType ∧
    SignedByAsked k mat l m digest (le16 m toff % 16) HDR_PUBKEY HDR_SIGNATURE k.sigSz k.verify ∧
    (k.hybrid = true → SignedByAsked k mat l m digest (le16 m toff % 16) HDR_SECONDARY_PUBKEY HDR_SECONDARY_SIGNATURE k.sigSz2 k.verify2)

theorem mapM_spec {α β : Type} {f : α → Option β} {l : List α} {r : List β} (h : l.mapM f = some r) :
    r.length = l.length ∧ (∀ y ∈ r, ∃ x ∈ l, f x = some y) ∧ ∀ x ∈ l, ∃ y ∈ r, f x = some y := by
  induction l generalizing r with
  | nil =>
    rw [List.mapM_nil] at h
    obtain rfl := Option.some.inj h
    simp
  | cons x l ih =>
    rw [List.mapM_cons] at h
    cases hx : f x with
    | none => rw [hx] at h; simp at h
    | some y =>
      rw [hx] at h
      cases hl : l.mapM f with
      | none => rw [hl] at h; simp at h
      | some r' =>
        rw [hl] at h
        simp at h
        subst h
        obtain ⟨h1, h2, h3⟩ := ih hl
        refine ⟨by simp [h1], ?_, ?_⟩
        · intro z hz
          rw [List.mem_cons] at hz
          rcases hz with rfl | hz
          · exact ⟨x, by simp, hx⟩
          · obtain ⟨w, hw, hw'⟩ := h2 z hz
            exact ⟨w, by simp [hw], hw'⟩
        · intro z hz
          rw [List.mem_cons] at hz
          rcases hz with rfl | hz
          · exact ⟨y, by simp, hx⟩
          · obtain ⟨w, hw, hw'⟩ := h3 z hz
            exact ⟨w, by simp [hw], hw'⟩

/-- The conditions under which the command line is understood: valid options, at most 64 keys of each kind. -/
structure Valid (l : List Opt) : Prop where
  ok : ∀ x ∈ l, x.OK
  imports : ((asked 0 none l).filter (·.old)).length ≤ 64
  keys : ((asked 0 none l).filter (!·.old)).length ≤ 64

theorem keygen_opts {imp gen} {l : List Opt} (h : Valid l) {ks : List Entry} (hk : keygen imp gen (l.flatMap Opt.text) = some ks) :
    ∃ o, pubKeys imp gen o = some ks ∧ o.noLocal = zeroed l ∧ o.imported = ((asked 0 none l).filter (·.old)).map Ask.key ∧
      o.generated = ((asked 0 none l).filter (!·.old)).map Ask.key := by
  obtain ⟨o, h1, h2, h3, h4, h5⟩ := args_text l none {} h.ok rfl (by simpa using h.imports) (by simpa using h.keys)
  unfold keygen main at hk
  by_cases hn : l.flatMap Opt.text = []
  · rw [if_pos hn] at hk
    simp at hk
  · rw [if_neg hn, h1] at hk
    dsimp only at hk
    by_cases ht : o.type = 0
    · rw [if_pos ht] at hk
      simp at hk
    · rw [if_neg ht] at hk
      exact ⟨o, hk, by simpa using h3, by simpa using h4, by simpa using h5⟩

/-- The table is written whenever an algorithm is named and the files can be imported. -/
theorem keygen_writes {imp gen} {l : List Opt} (h : Valid l) (ht : lastAlg 0 l ≠ 0)
    (hi : ∀ a ∈ asked 0 none l, a.old = true → ∃ b, imp a.alg a.file = some b) : ∃ ks, keygen imp gen (l.flatMap Opt.text) = some ks := by
  obtain ⟨o, h1, h2, h3, h4, h5⟩ := args_text l none {} h.ok rfl (by simpa using h.imports) (by simpa using h.keys)
  have hne : l.flatMap Opt.text ≠ [] := by
    intro h0
    rw [h0] at h1
    simp only [args, Parsed.opts.injEq] at h1
    subst h1
    exact ht h2.symm
  have hm : ∃ r, (o.imported.mapM fun k => (imp k.type k.file).map fun b => (k.type, k.mask, b)) = some r := by
    have : ∀ k ∈ o.imported, ∃ b, imp k.type k.file = some b := by
      intro k hk
      rw [h4] at hk
      simp only [List.nil_append, List.mem_map, List.mem_filter] at hk
      obtain ⟨a, ⟨ha, ha'⟩, rfl⟩ := hk
      exact hi a ha ha'
    generalize o.imported = q at this
    induction q with
    | nil => exact ⟨[], rfl⟩
    | cons k q ih =>
      obtain ⟨r, hr⟩ := ih fun x hx => this x (by simp [hx])
      obtain ⟨b, hb⟩ := this k (by simp)
      exact ⟨(k.type, k.mask, b) :: r, by rw [List.mapM_cons, hb, hr]; rfl⟩
  obtain ⟨r, hr⟩ := hm
  unfold keygen main
  rw [if_neg hne, h1]
  dsimp only
  rw [if_neg (by rw [h2]; exact ht)]
  unfold pubKeys keyList
  rw [hr]
  exact ⟨_, rfl⟩

theorem mem_slots {imp gen} {l : List Opt} (h : Valid l) (hz : zeroed l = false) {ks : List Entry}
    (hk : keygen imp gen (l.flatMap Opt.text) = some ks) {s : Slot} (hs : s ∈ slots ks) :
    s.mask = 0#32 ∨ ∃ a ∈ asked 0 none l, ∃ b, material imp gen a = some b ∧ s = ⟨b, maskOf a.ids⟩ := by
  obtain ⟨o, h1, h2, h3, h4⟩ := keygen_opts h hk
  unfold pubKeys keyList at h1
  cases hm : (o.imported.mapM fun k => (imp k.type k.file).map fun b => (k.type, k.mask, b)) with
  | none => rw [hm] at h1; simp at h1
  | some r =>
    rw [hm] at h1
    obtain ⟨m1, m2, m3⟩ := mapM_spec hm
    simp only [Option.map_some, Option.some.injEq] at h1
    subst h1
    unfold slots at hs
    rw [List.mem_map] at hs
    obtain ⟨e, he, rfl⟩ := hs
    rw [List.mem_append] at he
    rcases he with he | he
    · right
      rw [List.mem_mapIdx] at he
      obtain ⟨i, hi, rfl⟩ := he
      have hx := List.getElem_mem hi
      generalize (r ++ List.map (fun k => (k.type, k.mask, gen k.type k.file)) (List.filter (fun x => x.type != 0) o.generated))[i] = x at hx
      rw [List.mem_append] at hx
      have key : ∀ t : Nat × BitVec 32 × List Byte, x = t → (⟨(entry o.noLocal i x).key.take (entry o.noLocal i x).size, (entry o.noLocal i x).mask⟩ : Slot) = ⟨t.2.2, t.2.1⟩ := by
        rintro t rfl
        simp [entry, h2, hz]
      rcases hx with hx | hx
      · obtain ⟨q, hq, hq'⟩ := m2 x hx
        rw [h3, List.mem_map] at hq
        obtain ⟨a, ha, rfl⟩ := hq
        rw [List.mem_filter] at ha
        cases hb : imp a.key.type a.key.file with
        | none => rw [hb] at hq'; simp at hq'
        | some b =>
          rw [hb] at hq'
          simp at hq'
          subst hq'
          refine ⟨a, ha.1, b, ?_, key (a.key.type, a.key.mask, b) rfl⟩
          unfold material
          rw [if_pos ha.2]
          exact hb
      · rw [List.mem_map] at hx
        obtain ⟨q, hq, rfl⟩ := hx
        rw [List.mem_filter, h4, List.mem_map] at hq
        obtain ⟨⟨a, ha, rfl⟩, _⟩ := hq
        rw [List.mem_filter] at ha
        refine ⟨a, ha.1, gen a.alg a.file, ?_, key (a.key.type, a.key.mask, gen a.alg a.file) rfl⟩
        unfold material
        rw [if_neg (by simpa using ha.2)]
    · left
      rw [List.mem_replicate] at he
      rw [he.2]

theorem slots_mem {imp gen} {l : List Opt} (h : Valid l) (hz : zeroed l = false) {ks : List Entry}
    (hk : keygen imp gen (l.flatMap Opt.text) = some ks) {a : Ask} (ha : a ∈ asked 0 none l) (ht : a.alg ≠ 0) :
    ∃ b, material imp gen a = some b ∧ (⟨b, maskOf a.ids⟩ : Slot) ∈ slots ks := by
  obtain ⟨o, h1, h2, h3, h4⟩ := keygen_opts h hk
  unfold pubKeys keyList at h1
  cases hm : (o.imported.mapM fun k => (imp k.type k.file).map fun b => (k.type, k.mask, b)) with
  | none => rw [hm] at h1; simp at h1
  | some r =>
    rw [hm] at h1
    obtain ⟨m1, m2, m3⟩ := mapM_spec hm
    simp only [Option.map_some, Option.some.injEq] at h1
    have key : ∀ b, (a.alg, maskOf a.ids, b) ∈
        r ++ List.map (fun k => (k.type, k.mask, gen k.type k.file)) (List.filter (fun x => x.type != 0) o.generated) →
        (⟨b, maskOf a.ids⟩ : Slot) ∈ slots ks := by
      intro b hb
      obtain ⟨i, hi, he⟩ := List.getElem_of_mem hb
      rw [← h1]
      unfold slots
      rw [List.mem_map]
      refine ⟨entry o.noLocal i (a.alg, maskOf a.ids, b), List.mem_append_left _ (List.mem_mapIdx.mpr ⟨i, hi, by rw [he]⟩), ?_⟩
      simp [entry, h2, hz]
    cases hold : a.old with
    | true =>
      obtain ⟨y, hy, hy'⟩ := m3 a.key (by rw [h3, List.mem_map]; exact ⟨a, List.mem_filter.mpr ⟨ha, hold⟩, rfl⟩)
      cases hb : imp a.key.type a.key.file with
      | none => rw [hb] at hy'; simp at hy'
      | some b =>
        rw [hb] at hy'
        simp at hy'
        subst hy'
        refine ⟨b, ?_, key b (List.mem_append_left _ hy)⟩
        unfold material
        rw [if_pos hold]
        exact hb
    | false =>
      refine ⟨gen a.alg a.file, ?_, key _ (List.mem_append_right _ ?_)⟩
      · unfold material
        rw [if_neg (by simp [hold])]
      · rw [List.mem_map]
        refine ⟨a.key, List.mem_filter.mpr ⟨?_, by simpa [Ask.key] using ht⟩, rfl⟩
        rw [h4, List.mem_map]
        exact ⟨a, List.mem_filter.mpr ⟨ha, by simp [hold]⟩, rfl⟩

/-- **The keys asked for, and no others.** The table made by the tool for a valid command line, used as the keystore of the bootloader: an image that is
accepted is signed by a key that was asked for, and the partition in its header is one of the ids given for that key (any, if none were given). -/
theorem key_tool_sound {imp gen} {l : List Opt} (h : Valid l) (hz : zeroed l = false) {ks : List Entry}
    (hk : keygen imp gen (l.flatMap Opt.text) = some ks) (k : ImgCfg) (hks : k.keys = slots ks) (m : Mem) (fw : Nat) (d : List Byte)
    (hb : 0 < k.blk) (hfw : fw + k.blk < 4294967296) (hv : verifyImage k m fw d = .ok) :
    ∃ off, DigestOK k m fw off ∧ AuthenticAsked k (material imp gen) (asked 0 none l) m (k.hash (signedMsg k.H m off fw)) := by
  obtain ⟨off, h1, toff, h2, h3, h4, h5⟩ := verified_sound k m fw d hb hfw hv
  have key : ∀ {tag1 tag2 sz vf dg}, SignedBy k m dg (le16 m toff % 16) tag1 tag2 sz vf →
      SignedByAsked k (material imp gen) (asked 0 none l) m dg (le16 m toff % 16) tag1 tag2 sz vf := by
    rintro tag1 tag2 sz vf dg ⟨s, hs, hmask, hrest⟩
    rw [hks] at hs
    rcases mem_slots h hz hk hs with h0 | ⟨a, ha, b, hb', rfl⟩
    · rw [h0] at hmask
      simp at hmask
    · exact ⟨a, ha, b, hb', (maskOf_permits a (by omega)).mp hmask, hrest⟩
  exact ⟨off, h1, toff, h2, h3, key h4, fun hy => key (h5 hy)⟩

/-- **Exact.** If every key was asked for with an algorithm and the hashes of the keys are different, the images accepted are exactly those signed by a
key asked for whose ids contain the partition. -/
theorem key_tool_iff {imp gen} {l : List Opt} (h : Valid l) (hz : zeroed l = false) {ks : List Entry}
    (hk : keygen imp gen (l.flatMap Opt.text) = some ks) (halg : ∀ a ∈ asked 0 none l, a.alg ≠ 0) (k : ImgCfg) (hks : k.keys = slots ks)
    (hd : DistinctKeys k) (m : Mem) (fw : Nat) (d : List Byte) (hb : 0 < k.blk) (hfw : fw + k.blk < 4294967296) :
    verifyImage k m fw d = .ok ↔
      ∃ off, DigestOK k m fw off ∧ AuthenticAsked k (material imp gen) (asked 0 none l) m (k.hash (signedMsg k.H m off fw)) := by
  refine ⟨key_tool_sound h hz hk k hks m fw d hb hfw, ?_⟩
  rintro ⟨off, h1, toff, h2, h3, h4, h5⟩
  have key : ∀ {tag1 tag2 sz vf dg}, SignedByAsked k (material imp gen) (asked 0 none l) m dg (le16 m toff % 16) tag1 tag2 sz vf →
      SignedBy k m dg (le16 m toff % 16) tag1 tag2 sz vf := by
    rintro tag1 tag2 sz vf dg ⟨a, ha, b, hb', hp, hrest⟩
    obtain ⟨b', hb'', hs⟩ := slots_mem h hz hk ha (halg a ha)
    rw [hb'] at hb''
    obtain rfl := Option.some.inj hb''
    exact ⟨_, by rw [hks]; exact hs, (maskOf_permits a (by omega)).mpr hp, hrest⟩
  exact (verified_iff k hd m fw d hb hfw).mpr ⟨off, h1, toff, h2, h3, key h4, fun hy => key (h5 hy)⟩

/-- **`--nolocalkeys`**: the table contains no byte of any key but zeros. -/
theorem no_local_keys {imp gen} {l : List Opt} (h : Valid l) (hz : zeroed l = true) {ks : List Entry}
    (hk : keygen imp gen (l.flatMap Opt.text) = some ks) : ∀ e ∈ ks, ∀ x ∈ e.key, x = 0#8 := by
  obtain ⟨o, h1, h2, h3, h4⟩ := keygen_opts h hk
  unfold pubKeys at h1
  cases hm : keyList imp gen o with
  | none => rw [hm] at h1; simp at h1
  | some r =>
    rw [hm] at h1
    simp only [Option.map_some, Option.some.injEq] at h1
    subst h1
    intro e he x hx
    rw [List.mem_append] at he
    rcases he with he | he
    · rw [List.mem_mapIdx] at he
      obtain ⟨i, hi, rfl⟩ := he
      simp only [entry, h2, hz, if_true, List.mem_replicate] at hx
      exact hx.2
    · rw [List.mem_replicate] at he
      rw [he.2] at hx
      simp at hx

/-- **Access**: every slot number of the table gives its entry, every larger number an error. -/
theorem get_spec (ks : List Entry) (id : Nat) :
    (∀ h : id < ks.length, get ks id = .val ks[id] ∧ getType ks id = .val ks[id].type) ∧ (ks.length ≤ id → get ks id = .err) := by
  constructor
  · intro h
    unfold get getType
    rw [if_neg (by omega), if_neg (by omega), if_neg (by omega), Int.toNat_natCast, List.getElem?_eq_getElem h]
    exact ⟨rfl, rfl⟩
  · intro h
    unfold get
    rw [if_pos (by omega)]

/-- **Finding**: negative numbers are not refused by any accessor, and `keystore_get_key_type` refuses no number at all: outside of the table it reads
memory that follows. -/
theorem get_outside (ks : List Entry) : (∀ id : Int, id < 0 → get ks id = .oob ∧ getType ks id = .oob) ∧ ∀ id : Nat, ks.length ≤ id → getType ks id = .oob := by
  constructor
  · intro id h
    unfold get getType
    rw [if_neg (by omega), if_pos h, if_pos h]
    exact ⟨rfl, rfl⟩
  · intro id h
    unfold getType
    rw [if_neg (by omega), Int.toNat_natCast, List.getElem?_eq_none h]

end KeyTool

end Verif
