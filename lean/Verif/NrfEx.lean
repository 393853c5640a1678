import Verif.NrfThms

/-!
# Runs of the two cores

The runs below show what happens when a condition of `update_iff` is dropped: with `NRF_SYNC_CORES` (the configuration in
`/repo/config/examples/nrf5340.config`), with leftovers in shared memory after a warm reset, with a timeout, and when an event is consumed
before the status is written.
-/

namespace Verif.Nrf

open Verif

namespace Demo

/-- An image of 4 bytes of version `v`; the network core has version 3. -/
def env (sync : Bool) (v : Nat) : Env :=
  { sync := sync, found := true, valid := true, appVer := v, appSize := 4, img := fun i => BitVec.ofNat 8 (i + 1), netVer := 3,
    netSize := 300, readOk := true, newVer := v }

/-- Shared memory after power-up. -/
def zero : Info := { magic := false, status := 0#32, version := 0, size := 0 }

/-- Shared memory after an earlier run. -/
def left (st : BitVec 32) : Info := { magic := true, status := st, version := 0, size := 0 }

/-- Bytes that are in shared memory. -/
def junk : Mem := fun _ => 0#8

/-- Steps of the application core (`a`), the network core (`n`), and steps that end with a timeout (`A`, `N`). -/
def act (c : Char) : Act :=
  if c = 'a' then .app false junk else if c = 'n' then .net false junk else if c = 'A' then .app true junk else .net true junk

/-- A schedule. -/
def sched (s : List Char) : List Act := s.map act

/-- A schedule without timeouts. -/
theorem noTimeout (s : List Char) (h : s.all (fun c => c = 'a' || c = 'n') = true) : ∀ x ∈ sched s, x.noTimeout := by
  intro x hx
  obtain ⟨c, hc, rfl⟩ := List.mem_map.1 hx
  have := List.all_eq_true.1 h c hc
  by_cases h1 : c = 'a'
  · simp [act, h1, Act.noTimeout]
  · by_cases h2 : c = 'n'
    · simp [act, h2, Act.noTimeout]
    · simp [h1, h2] at this

/-- The cores meet. -/
def meet : List Char := ['a', 'a', 'n', 'n', 'a', 'a', 'n']

/-- The network core reports its version. -/
def report : List Char := List.replicate 7 'n'

/-- An update that is made. -/
def good : List Char := meet ++ report ++ List.replicate 10 'a' ++ List.replicate 7 'n' ++ List.replicate 9 'a'

/-- The application core is done before the network core looks. -/
def late : List Char := meet ++ report ++ List.replicate 12 'a' ++ List.replicate 8 'n' ++ List.replicate 9 'a'

/-- The network core consumes the event before the status is written. -/
def lost : List Char := meet ++ report ++ ['n'] ++ List.replicate 7 'a' ++ ['n', 'n'] ++ List.replicate 5 'a'

/-- The network core looks before the application core has decided. -/
def stale : List Char := meet ++ report ++ ['n', 'n', 'n']

/-- The application core does not wait for the version. -/
def hasty : List Char := meet ++ ['a', 'A'] ++ List.replicate 9 'a' ++ report ++ ['n', 'n', 'n']

/-- The application core is done, the network core has yet to write its status. -/
def ahead : List Char := meet ++ report ++ List.replicate 6 'a' ++ List.replicate 6 'n'

theorem offer (sync : Bool) : Offer (env sync 7) := ⟨rfl, rfl, rfl, show 3 < 7 by decide⟩

theorem fresh : Fresh zero zero := by unfold Fresh; decide

end Demo

open Demo

/-- The conditions of `update_safe`, `update_iff` and `app_after_update` are met by a run with an update. -/
example : (run (env false 7) (reset zero zero junk) (sched good)).nUpd = true ∧
    (run (env false 7) (reset zero zero junk) (sched good)).npc = .ended ∧
    (run (env false 7) (reset zero zero junk) (sched good)).apc = .ended := by decide +kernel

example : (∀ x ∈ sched good, x.noTimeout) ∧ Fresh zero zero ∧ Offer (env false 7) := ⟨noTimeout good (by decide), fresh, offer false⟩

/-- And by one without: the image of the application core is older. -/
example : (run (env false 2) (reset zero zero junk) (sched (ahead ++ ['n']))).nUpd = false ∧
    (run (env false 2) (reset zero zero junk) (sched (ahead ++ ['n']))).npc = .ended ∧ ¬ Offer (env false 2) := by
  refine ⟨by decide +kernel, by decide +kernel, ?_⟩
  rintro ⟨-, -, -, h⟩
  exact absurd h (by decide)

/-- What the network core has seen is the image. -/
example : ((run (env false 7) (reset zero zero junk) (sched good)).seen.map fun m => (m 0, m 3, m 4)) = some (1#8, 4#8, 0xFF#8) := by
  decide +kernel

/-- **With `NRF_SYNC_CORES` an update can be lost**, without any timeout: the application core overwrites `SHARED_STATUS_UPDATE_START` with
`SHARED_STATUS_DO_BOOT` without waiting, `/repo/hal/nrf5340.c:613-635`. -/
theorem sync_update_lost : ∃ (e : Env) (app net : Info) (data : Mem) (l : List Act), e.sync = true ∧ Fresh app net ∧
    (∀ x ∈ l, x.noTimeout) ∧ Offer e ∧ (run e (reset app net data) l).apc = .ended ∧
    (run e (reset app net data) l).npc = .ended ∧ (run e (reset app net data) l).nUpd = false :=
  ⟨env true 7, zero, zero, junk, sched late, rfl, fresh, noTimeout _ (by decide), offer _, by decide +kernel, by decide +kernel,
    by decide +kernel⟩

/-- With `NRF_SYNC_CORES` an update can also be made. -/
example : (run (env true 7) (reset zero zero junk) (sched (meet ++ report ++ List.replicate 9 'a' ++ List.replicate 3 'n'))).nUpd = true := by
  decide +kernel

/-- **An event can be lost**: `hal_shm_status_set` raises the event before it writes the status, `/repo/hal/nrf5340.c:467-474`; the network core
can consume it and find the old status. Then both cores wait, although `SHARED_STATUS_UPDATE_START` is set, until a timeout. -/
theorem wakeup_lost : ∃ (e : Env) (app net : Info) (data : Mem) (l : List Act), e.sync = false ∧ Fresh app net ∧
    (∀ x ∈ l, x.noTimeout) ∧ Offer e ∧ (run e (reset app net data) l).app.status = START ∧
    (run e (reset app net data) l).nUpd = false ∧
    ∀ r, (∀ x ∈ r, x.noTimeout) → run e (run e (reset app net data) l) r = run e (reset app net data) l := by
  refine ⟨env false 7, zero, zero, junk, sched lost, rfl, fresh, noTimeout _ (by decide), offer _, by decide +kernel,
    by decide +kernel, fun r hr => stuck _ r _ ?_ ?_ ?_ ?_ hr⟩
  all_goals decide +kernel

/-- Then the timeouts end the wait, and the update is not made. -/
example : (run (env false 7) (reset zero zero junk) (sched (lost ++ ['N'] ++ List.replicate 5 'n' ++ ['A', 'a', 'a', 'a']))).nUpd = false ∧
    (run (env false 7) (reset zero zero junk) (sched (lost ++ ['N'] ++ List.replicate 5 'n' ++ ['A', 'a', 'a', 'a']))).apc = .ended ∧
    (run (env false 7) (reset zero zero junk) (sched (lost ++ ['N'] ++ List.replicate 5 'n' ++ ['A', 'a', 'a', 'a']))).npc = .ended := by
  decide +kernel

/-- **Leftovers of the last boot make the network core miss the update**: nobody clears the status, and `SHARED_STATUS_DO_BOOT` of the last run is
still in memory after a warm reset. -/
theorem stale_boot : ∃ (e : Env) (app net : Info) (data : Mem) (l : List Act), e.sync = false ∧ app.magic = true ∧ app.status = BOOT ∧
    (∀ x ∈ l, x.noTimeout) ∧ Offer e ∧ pre (run e (reset app net data) l).npc = false ∧ (run e (reset app net data) l).nUpd = false :=
  ⟨env false 7, left BOOT, zero, junk, sched stale, rfl, rfl, rfl, noTimeout _ (by decide), offer _, by decide +kernel, by decide +kernel⟩

/-- **Leftovers of an interrupted update start an update without an image**: with `SHARED_STATUS_UPDATE_START` in memory after a warm reset, the
network core updates from whatever is in shared memory, before the application core has verified and copied anything. -/
theorem stale_start : ∃ (e : Env) (app net : Info) (data : Mem) (l : List Act), app.magic = true ∧ app.status = START ∧
    (∀ x ∈ l, x.noTimeout) ∧ (run e (reset app net data) l).nUpd = true ∧ early (run e (reset app net data) l).apc = true ∧
    (run e (reset app net data) l).seen ≠ some (padded e) := by
  refine ⟨env false 7, left START, zero, junk, sched stale, rfl, rfl, noTimeout _ (by decide), by decide +kernel, by decide +kernel, ?_⟩
  intro h
  have h1 : ((run (env false 7) (reset (left START) zero junk) (sched stale)).seen.map fun m => m 0) = some 0#8 := by decide +kernel
  rw [h] at h1
  revert h1
  decide +kernel

/-- **A timeout can start an update to an older image**: the application core takes `version` of the network core without looking whether the
wait for it has ended with a timeout, `/repo/hal/nrf5340.c:577-585`. (The bootloader of the network core checks the version again.) -/
theorem timeout_offers_older : ∃ (e : Env) (app net : Info) (data : Mem) (l : List Act), e.sync = false ∧ Fresh app net ∧
    e.appVer < e.netVer ∧ (run e (reset app net data) l).nUpd = true :=
  ⟨env false 2, zero, zero, junk, sched hasty, rfl, fresh, by decide, by decide +kernel⟩

/-- **Without `NRF_SYNC_CORES` the shared memory is taken away too early**: the application core ends (`hal_shm_cleanup`) although the network core
has yet to write its status to shared memory. Compare `sync_cleanup`. -/
theorem cleanup_early : ∃ (e : Env) (app net : Info) (data : Mem) (l : List Act), e.sync = false ∧ Fresh app net ∧
    (∀ x ∈ l, x.noTimeout) ∧ (run e (reset app net data) l).apc = .ended ∧ (run e (reset app net data) l).npc = .fiStat ∧
    (run e (reset app net data) l).nShm = true :=
  ⟨env false 2, zero, zero, junk, sched ahead, rfl, fresh, noTimeout _ (by decide), by decide +kernel, by decide +kernel,
    by decide +kernel⟩

/-- The condition of `sync_cleanup` is met. -/
example : (run (env true 7) (reset zero zero junk) (sched late)).apc = .ended ∧ (env true 7).sync = true := by decide +kernel

/-- **Another image than the verified one can be copied**: one in the update partition of external flash is opened and verified, the one at
`PART_NET_ADDR` is copied, `/repo/hal/nrf5340.c:420,601`. -/
theorem copied_other : ∃ u a o, opened true u a = some o ∧ copied true o ≠ o := ⟨true, true, .update, rfl, by decide⟩

example : opened true false true = some .alternate ∧ copied true .alternate = .alternate := by decide

/-- The conditions of `load_fits`, with a header of 512 bytes and the largest image. -/
example : 0x200#32 ≤ FLASH_SIZE_NET ∧ sizeOk 0x200#32 0x3FDFF#32 = true ∧ readLen 0x200#32 0x3FDFF#32 = 0x40000#32 ∧
    sizeOk 0x200#32 0x3FE00#32 = false := by decide

/-- The conditions of `protect_all`: a bootloader of 48 KB. -/
example : protect 0x100000#32 0#32 0xC000#32 = some (0#32, 3#32) := by decide

/-- The conditions of `protect_tail`: of a bootloader of 47 KB the last 15 KB are not protected. -/
example : protect 0x100000#32 0#32 0xBC00#32 = some (0#32, 2#32) := by decide

/-- An update is offered in this run, so that the cores have met. -/
example : (run (env false 7) (reset zero zero junk) (sched (meet ++ report ++ List.replicate 9 'a'))).aShm = true :=
  offer_needs_core (env false 7) zero zero junk _ (by decide) (Or.inl (by decide +kernel))

/-- Leftovers without the magic are ignored, until the application core writes it. -/
example : (run (env false 7) (reset { zero with status := START } zero junk) (sched stale)).nUpd = false :=
  magic_guards_net (env false 7) _ zero junk _ (by decide +kernel)

/-- The same for the network core: `VERSION` without the magic. -/
example : (run (env false 7) (reset zero { zero with status := VERSION } junk) (sched (meet ++ ['a', 'a', 'a']))).app.status = 0#32 :=
  (magic_guards_app (env false 7) zero { zero with status := VERSION } junk (sched (meet ++ ['a', 'a', 'a'])) (noTimeout _ (by decide))
    (by decide +kernel)).2

/-- **The magic is written before the status**, `/repo/hal/nrf5340.c:471-472`: when the application core, without an update to offer, writes its status for
the first time, the network core can take an old `SHARED_STATUS_UPDATE_START` for a new one and update without an image. -/
theorem magic_before_status : ∃ (e : Env) (app net : Info) (data : Mem) (l : List Act), app.magic = false ∧ ¬ Offer e ∧
    (∀ x ∈ l, x.noTimeout) ∧ (run e (reset app net data) l).nUpd = true := by
  refine ⟨env false 2, { zero with status := START }, zero, junk, sched (meet ++ report ++ List.replicate 5 'a' ++ ['n', 'n', 'n']), rfl, ?_,
    noTimeout _ (by decide), by decide +kernel⟩
  rintro ⟨-, -, -, h⟩
  exact absurd h (by decide)

end Verif.Nrf
