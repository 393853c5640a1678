import Verif.Basic

/-!
# Page tables of x86-64

`/repo/src/x86/paging.c`: the identity mapping that stage 1 builds and the mapping of further memory for ELF
segments. Memory is seen as pages (by page number) of 512 entries; all accesses of the code are to entries of
page-aligned tables. Entries are natural numbers below 2^64.

Specification: the translation done by the CPU (`walk`), Intel SDM volume 3, 4.5.
-/

namespace Verif

/-- Physical memory: page number, index of the 8-byte entry. -/
abbrev PMem := Nat → Nat → Nat

/-! ## Specification: the walk of the CPU -/

/-- Bits 12 to 51 of an entry, as a page number. -/
def pfn (e : Nat) : Nat := e / 4096 % 2 ^ 40

/-- Bits 0 and 1: present and writable. -/
def allows (e : Nat) : Bool := e % 4 = 3

/-- Bit 7: the entry maps a large page. -/
def isLarge (e : Nat) : Bool := e / 128 % 2 = 1

/-- The virtual addresses that the CPU accepts. -/
def Canon (va : Nat) : Prop := va < 2 ^ 47 ∨ (2 ^ 64 - 2 ^ 47 ≤ va ∧ va < 2 ^ 64)

/-- Translation of a canonical virtual address for a write; `root` is the page number in CR3. -/
def walk (m : PMem) (root va : Nat) : Option Nat :=
  let e4 := m root (va / 2 ^ 39 % 512)
  if allows e4 = false then none else
  let e3 := m (pfn e4) (va / 2 ^ 30 % 512)
  if allows e3 = false then none
  else if isLarge e3 then some (pfn e3 / 2 ^ 18 * 2 ^ 30 + va % 2 ^ 30) else
  let e2 := m (pfn e3) (va / 2 ^ 21 % 512)
  if allows e2 = false then none
  else if isLarge e2 then some (pfn e2 / 2 ^ 9 * 2 ^ 21 + va % 2 ^ 21) else
  let e1 := m (pfn e2) (va / 2 ^ 12 % 512)
  if allows e1 = false then none else some (pfn e1 * 4096 + va % 4096)

/-! ## Entries -/

/-- `x86_paging_setup_entry`, `/repo/src/x86/paging.c:86-91`, with `x86_paging_pte_set_pfn`, `_set_present`,
`_set_rw` (56-74); `addr` below 2^64. -/
def setupEntry (e addr : Nat) : Nat := e ||| (addr / 4096 * 4096) ||| 1 ||| 2

/-- `x86_paging_pte_set_ps`, `/repo/src/x86/paging.c:66-69`. -/
def setPs (e : Nat) : Nat := e ||| 128

/-- `x86_paging_pte_get_pfn`, `/repo/src/x86/paging.c:76-79`, as a page number. -/
def getPfn (e : Nat) : Nat := e / 4096

/-- The index in `x86_paging_get_entry_ptr`, `/repo/src/x86/paging.c:147-153`. -/
def vaIdx (va level : Nat) : Nat := (va >>> (12 + (level - 1) * 9)) &&& 0x1FF

/-- A store to an entry. -/
def PMem.set (m : PMem) (page idx v : Nat) : PMem := fun p j => if p = page ∧ j = idx then v else m p j

/-! ## Identity mapping -/

/-- `x86_paging_get_needed_entries`, `/repo/src/x86/paging.c:81-84`: `~PAGE_MASK` is 0xfff. -/
def neededEntries (size level : Nat) : Nat := ((size >>> (9 * level + 3)) &&& 0xfff) + 1

/-- The loops of `x86_paging_build_identity_mapping`, `/repo/src/x86/paging.c:120-134`: entry `i` (counted from
the start of `page`, over page boundaries) is changed by `g i`, for `i` up to `n`. -/
def fillLoop (g : Nat → Nat → Nat) (page n i : Nat) (m : PMem) : PMem :=
  if i < n then
    fillLoop g page n (i + 1) (m.set (page + i / 512) (i % 512) (g i (m (page + i / 512) (i % 512))))
  else m
termination_by n - i

/-- `x86_paging_build_identity_mapping`, `/repo/src/x86/paging.c:98-137`; `pt` is the page number of the tables.
`i << PAGE_2MB_SHIFT` is computed in 32 bits. `none`: return -1. -/
def buildIdentity (top pt : Nat) (m : PMem) : Option PMem :=
  let n4 := neededEntries top 4
  let n3 := neededEntries top 3
  let n2 := neededEntries top 2
  if n3 + n4 + 1 > 7 then none
  else
    let l3 := pt + 1
    let l2 := l3 + n4
    let m := fillLoop (fun i e => setupEntry e ((l3 + i) * 4096)) pt n4 0 m
    let m := fillLoop (fun i e => setupEntry e ((l2 + i) * 4096)) l3 n3 0 m
    some (fillLoop (fun i e => setPs (setupEntry e (i * 2 ^ 21 % 2 ^ 32))) l2 n2 0 m)

/-! ## Mapping pages -/

/-- Tables and `page_table_page_used`. -/
structure PgSt where
  m : PMem
  used : Nat

/-- `x86_paging_setup_ptp`, `/repo/src/x86/paging.c:155-167`, on the entry `idx` of `page`; `pool` is the page
number of `page_table_pages`. `none`: panic. -/
def setupPtp (pool page idx : Nat) (s : PgSt) : Option PgSt :=
  if s.used + 1 = 512 then none
  else
    let m := s.m.set page idx (setupEntry (s.m page idx) ((pool + s.used) * 4096))
    some { m := fun p j => if p = pool + s.used then 0 else m p j, used := s.used + 1 }

/-- `if (*e == 0) x86_paging_setup_ptp(e)`, `/repo/src/x86/paging.c:176-185`. -/
def ensurePtp (pool page idx : Nat) (s : PgSt) : Option PgSt :=
  if s.m page idx = 0 then setupPtp pool page idx s else some s

/-- `x86_paging_map_page`, `/repo/src/x86/paging.c:169-195`. -/
def mapPage (pool root va pa : Nat) (s : PgSt) : Option PgSt :=
  (ensurePtp pool root (vaIdx va 4) s).bind fun s =>
  let l3 := getPfn (s.m root (vaIdx va 4))
  (ensurePtp pool l3 (vaIdx va 3) s).bind fun s =>
  let l2 := getPfn (s.m l3 (vaIdx va 3))
  (ensurePtp pool l2 (vaIdx va 2) s).bind fun s =>
  let e2 := s.m l2 (vaIdx va 2)
  if isLarge e2 then some s
  else
    let l1 := getPfn e2
    if s.m l1 (vaIdx va 1) ≠ 0 then some s
    else some { s with m := s.m.set l1 (vaIdx va 1) (setupEntry (s.m l1 (vaIdx va 1)) pa) }

/-- Result of `x86_paging_map_memory`; `running`: the loop did not end in the given number of steps. -/
inductive MapRes where
  | error
  | panic
  | running
  | ok (s : PgSt)

/-- The loop of `x86_paging_map_memory`, `/repo/src/x86/paging.c:209-211`, with 64-bit counters; the first
argument bounds the number of steps. -/
def mapLoop (pool root : Nat) : Nat → Nat → Nat → Nat → PgSt → MapRes
  | 0, _, _, _, _ => .running
  | fuel + 1, page, pa, end_, s =>
    if page < end_ then
      match mapPage pool root page pa s with
      | none => .panic
      | some s => mapLoop pool root fuel ((page + 4096) % 2 ^ 64) ((pa + 4096) % 2 ^ 64) end_ s
    else .ok s

/-- `x86_paging_map_memory`, `/repo/src/x86/paging.c:197-214`. -/
def mapMemory (fuel pool root va pa size : Nat) (s : PgSt) : MapRes :=
  if pa / 4096 * 4096 = 0 then .error
  else mapLoop pool root fuel (va / 4096 * 4096) (pa / 4096 * 4096) ((va + size) % 2 ^ 64) s

end Verif
