import Verif.Nrf

/-!
# The image reaches the network core

`update_safe` holds for every interleaving, with timeouts, and with and without `NRF_SYNC_CORES`. `update_iff` says that an update is made
exactly when there is one, if no wait ends with a timeout, the application core waits for the network core, and shared memory has no
leftovers of an earlier run; the other theorems show that none of these conditions can be dropped.
-/

namespace Verif.Nrf

open Verif

/-- The application core has not yet filled the shared memory. -/
def early : APc → Bool
  | .getImg | .release | .sig | .sigWait | .verChk | .verRead | .verAwait | .decide | .verify | .load | .fill => true
  | _ => false

/-- The network core has not yet decided. -/
def pre : NPc → Bool
  | .work | .fiEv | .fiMagic | .fiStat | .ended => false
  | _ => true

/-- The image is complete. -/
def Loaded (e : Env) (s : S) : Prop := s.data = padded e ∧ e.valid = true ∧ e.readOk = true

/-- The places of `hal_shm_status_set (…, SHARED_STATUS_UPDATE_START)`. -/
def starting : APc → Bool
  | .stEv | .stMagic | .stStat => true
  | _ => false

@[simp] theorem early_getImg : early APc.getImg = true := rfl
@[simp] theorem early_release : early APc.release = true := rfl
@[simp] theorem early_sig : early APc.sig = true := rfl
@[simp] theorem early_sigWait : early APc.sigWait = true := rfl
@[simp] theorem early_verChk : early APc.verChk = true := rfl
@[simp] theorem early_verRead : early APc.verRead = true := rfl
@[simp] theorem early_verAwait : early APc.verAwait = true := rfl
@[simp] theorem early_decide : early APc.decide = true := rfl
@[simp] theorem early_verify : early APc.verify = true := rfl
@[simp] theorem early_load : early APc.load = true := rfl
@[simp] theorem early_fill : early APc.fill = true := rfl
@[simp] theorem early_stEv : early APc.stEv = false := rfl
@[simp] theorem early_stMagic : early APc.stMagic = false := rfl
@[simp] theorem early_stStat : early APc.stStat = false := rfl
@[simp] theorem early_dnChk : early APc.dnChk = false := rfl
@[simp] theorem early_dnRead : early APc.dnRead = false := rfl
@[simp] theorem early_dnAwait : early APc.dnAwait = false := rfl
@[simp] theorem early_btEv : early APc.btEv = false := rfl
@[simp] theorem early_btMagic : early APc.btMagic = false := rfl
@[simp] theorem early_btStat : early APc.btStat = false := rfl
@[simp] theorem early_syChk : early APc.syChk = false := rfl
@[simp] theorem early_syRead : early APc.syRead = false := rfl
@[simp] theorem early_syAwait : early APc.syAwait = false := rfl
@[simp] theorem early_ended : early APc.ended = false := rfl
@[simp] theorem starting_getImg : starting APc.getImg = false := rfl
@[simp] theorem starting_release : starting APc.release = false := rfl
@[simp] theorem starting_sig : starting APc.sig = false := rfl
@[simp] theorem starting_sigWait : starting APc.sigWait = false := rfl
@[simp] theorem starting_verChk : starting APc.verChk = false := rfl
@[simp] theorem starting_verRead : starting APc.verRead = false := rfl
@[simp] theorem starting_verAwait : starting APc.verAwait = false := rfl
@[simp] theorem starting_decide : starting APc.decide = false := rfl
@[simp] theorem starting_verify : starting APc.verify = false := rfl
@[simp] theorem starting_load : starting APc.load = false := rfl
@[simp] theorem starting_fill : starting APc.fill = false := rfl
@[simp] theorem starting_stEv : starting APc.stEv = true := rfl
@[simp] theorem starting_stMagic : starting APc.stMagic = true := rfl
@[simp] theorem starting_stStat : starting APc.stStat = true := rfl
@[simp] theorem starting_dnChk : starting APc.dnChk = false := rfl
@[simp] theorem starting_dnRead : starting APc.dnRead = false := rfl
@[simp] theorem starting_dnAwait : starting APc.dnAwait = false := rfl
@[simp] theorem starting_btEv : starting APc.btEv = false := rfl
@[simp] theorem starting_btMagic : starting APc.btMagic = false := rfl
@[simp] theorem starting_btStat : starting APc.btStat = false := rfl
@[simp] theorem starting_syChk : starting APc.syChk = false := rfl
@[simp] theorem starting_syRead : starting APc.syRead = false := rfl
@[simp] theorem starting_syAwait : starting APc.syAwait = false := rfl
@[simp] theorem starting_ended : starting APc.ended = false := rfl
@[simp] theorem pre_off : pre NPc.off = true := rfl
@[simp] theorem pre_init : pre NPc.init = true := rfl
@[simp] theorem pre_sig : pre NPc.sig = true := rfl
@[simp] theorem pre_sigWait : pre NPc.sigWait = true := rfl
@[simp] theorem pre_rdEv : pre NPc.rdEv = true := rfl
@[simp] theorem pre_rdMagic : pre NPc.rdMagic = true := rfl
@[simp] theorem pre_rdStat : pre NPc.rdStat = true := rfl
@[simp] theorem pre_getImg : pre NPc.getImg = true := rfl
@[simp] theorem pre_vsEv : pre NPc.vsEv = true := rfl
@[simp] theorem pre_vsMagic : pre NPc.vsMagic = true := rfl
@[simp] theorem pre_vsStat : pre NPc.vsStat = true := rfl
@[simp] theorem pre_chk : pre NPc.chk = true := rfl
@[simp] theorem pre_read : pre NPc.read = true := rfl
@[simp] theorem pre_await : pre NPc.await = true := rfl
@[simp] theorem pre_branch : pre NPc.branch = true := rfl
@[simp] theorem pre_work : pre NPc.work = false := rfl
@[simp] theorem pre_fiEv : pre NPc.fiEv = false := rfl
@[simp] theorem pre_fiMagic : pre NPc.fiMagic = false := rfl
@[simp] theorem pre_fiStat : pre NPc.fiStat = false := rfl
@[simp] theorem pre_ended : pre NPc.ended = false := rfl

structure Inv (e : Env) (s : S) : Prop where
  a : s.app.status = START → early s.apc = false
  b : starting s.apc = true → pre s.npc = true → Loaded e s
  c : s.app.status = START → pre s.npc = true → Loaded e s
  d : s.npc = .branch → s.got = START → Loaded e s ∧ early s.apc = false
  f : s.nUpd = true → s.seen = some (padded e) ∧ e.valid = true ∧ e.readOk = true ∧ early s.apc = false
  g : s.nUpd = true → pre s.npc = false
  v : s.apc = .load ∨ s.apc = .fill → e.valid = true

theorem timeout_ne : TIMEOUT ≠ START := by decide
theorem boot_ne : BOOT ≠ START := by decide

theorem inv_app (e : Env) (t : Bool) (j : Mem) (s : S) (h : Inv e s) : Inv e (appStep e t j s) := by
  obtain ⟨a, b, c, d, f, g, v⟩ := h
  cases hp : s.apc <;> simp only [appStep, hp] <;> (repeat' split) <;>
    constructor <;> simp_all [Loaded, boot_ne]

set_option maxHeartbeats 1000000 in
theorem inv_net (e : Env) (t : Bool) (j : Mem) (s : S) (h : Inv e s) : Inv e (netStep e t j s) := by
  obtain ⟨a, b, c, d, f, g, v⟩ := h
  cases hp : s.npc <;> simp only [netStep, hp] <;> (repeat' split) <;>
    constructor <;> simp_all [Loaded, timeout_ne]

theorem inv_step (e : Env) (s : S) (x : Act) (h : Inv e s) : Inv e (step e s x) := by
  cases x with
  | app t j => exact inv_app e t j s h
  | net t j => exact inv_net e t j s h

theorem inv_run (e : Env) (l : List Act) : ∀ s, Inv e s → Inv e (run e s l) := by
  induction l with
  | nil => intro s h; exact h
  | cons x r ih => intro s h; exact ih _ (inv_step e s x h)

theorem inv_reset (e : Env) (app net : Info) (data : Mem) (h : app.status ≠ START) : Inv e (reset app net data) := by
  constructor <;> simp_all [reset]

/-- **The network core updates with a complete, valid image only**, in every interleaving, with any timeouts: when it decides to update, the shared
memory has the whole image, the application core has verified it, and does not write to it afterwards. -/
theorem update_safe (e : Env) (app net : Info) (data : Mem) (l : List Act) (h : app.status ≠ START)
    (hu : (run e (reset app net data) l).nUpd = true) :
    (run e (reset app net data) l).seen = some (padded e) ∧ e.valid = true ∧ early (run e (reset app net data) l).apc = false := by
  have hi := inv_run e l _ (inv_reset e app net data h)
  exact ⟨(hi.f hu).1, (hi.f hu).2.1, (hi.f hu).2.2.2⟩

/-- The application core writes the shared data only in the two places before the signal. -/
theorem app_writes (e : Env) (t : Bool) (j : Mem) (s : S) (h : early s.apc = false) :
    (appStep e t j s).data = s.data ∧ early (appStep e t j s).apc = false := by
  cases hp : s.apc <;> simp only [appStep, hp] <;> (repeat' split) <;> simp_all

/-- What the application core writes to `version`. -/
def V (e : Env) : Nat := if e.found then e.appVer else 0

/-- The network core has left `hal_net_signal_wait_ready`. -/
def pastSig : NPc → Bool
  | .rdEv | .rdMagic | .rdStat | .getImg | .vsEv | .vsMagic | .vsStat | .chk | .read | .await | .branch | .work | .fiEv | .fiMagic | .fiStat | .ended => true
  | _ => false
@[simp] theorem pastSig_off : pastSig NPc.off = false := rfl
@[simp] theorem pastSig_init : pastSig NPc.init = false := rfl
@[simp] theorem pastSig_sig : pastSig NPc.sig = false := rfl
@[simp] theorem pastSig_sigWait : pastSig NPc.sigWait = false := rfl
@[simp] theorem pastSig_rdEv : pastSig NPc.rdEv = true := rfl
@[simp] theorem pastSig_rdMagic : pastSig NPc.rdMagic = true := rfl
@[simp] theorem pastSig_rdStat : pastSig NPc.rdStat = true := rfl
@[simp] theorem pastSig_getImg : pastSig NPc.getImg = true := rfl
@[simp] theorem pastSig_vsEv : pastSig NPc.vsEv = true := rfl
@[simp] theorem pastSig_vsMagic : pastSig NPc.vsMagic = true := rfl
@[simp] theorem pastSig_vsStat : pastSig NPc.vsStat = true := rfl
@[simp] theorem pastSig_chk : pastSig NPc.chk = true := rfl
@[simp] theorem pastSig_read : pastSig NPc.read = true := rfl
@[simp] theorem pastSig_await : pastSig NPc.await = true := rfl
@[simp] theorem pastSig_branch : pastSig NPc.branch = true := rfl
@[simp] theorem pastSig_work : pastSig NPc.work = true := rfl
@[simp] theorem pastSig_fiEv : pastSig NPc.fiEv = true := rfl
@[simp] theorem pastSig_fiMagic : pastSig NPc.fiMagic = true := rfl
@[simp] theorem pastSig_fiStat : pastSig NPc.fiStat = true := rfl
@[simp] theorem pastSig_ended : pastSig NPc.ended = true := rfl
/-- The network core has written its version. -/
def hasVer : NPc → Bool
  | .vsEv | .vsMagic | .vsStat | .chk | .read | .await | .branch | .work | .fiEv | .fiMagic | .fiStat | .ended => true
  | _ => false
@[simp] theorem hasVer_off : hasVer NPc.off = false := rfl
@[simp] theorem hasVer_init : hasVer NPc.init = false := rfl
@[simp] theorem hasVer_sig : hasVer NPc.sig = false := rfl
@[simp] theorem hasVer_sigWait : hasVer NPc.sigWait = false := rfl
@[simp] theorem hasVer_rdEv : hasVer NPc.rdEv = false := rfl
@[simp] theorem hasVer_rdMagic : hasVer NPc.rdMagic = false := rfl
@[simp] theorem hasVer_rdStat : hasVer NPc.rdStat = false := rfl
@[simp] theorem hasVer_getImg : hasVer NPc.getImg = false := rfl
@[simp] theorem hasVer_vsEv : hasVer NPc.vsEv = true := rfl
@[simp] theorem hasVer_vsMagic : hasVer NPc.vsMagic = true := rfl
@[simp] theorem hasVer_vsStat : hasVer NPc.vsStat = true := rfl
@[simp] theorem hasVer_chk : hasVer NPc.chk = true := rfl
@[simp] theorem hasVer_read : hasVer NPc.read = true := rfl
@[simp] theorem hasVer_await : hasVer NPc.await = true := rfl
@[simp] theorem hasVer_branch : hasVer NPc.branch = true := rfl
@[simp] theorem hasVer_work : hasVer NPc.work = true := rfl
@[simp] theorem hasVer_fiEv : hasVer NPc.fiEv = true := rfl
@[simp] theorem hasVer_fiMagic : hasVer NPc.fiMagic = true := rfl
@[simp] theorem hasVer_fiStat : hasVer NPc.fiStat = true := rfl
@[simp] theorem hasVer_ended : hasVer NPc.ended = true := rfl
/-- The network core has reported its version. -/
def told : NPc → Bool
  | .chk | .read | .await | .branch | .work | .fiEv | .fiMagic | .fiStat | .ended => true
  | _ => false
@[simp] theorem told_off : told NPc.off = false := rfl
@[simp] theorem told_init : told NPc.init = false := rfl
@[simp] theorem told_sig : told NPc.sig = false := rfl
@[simp] theorem told_sigWait : told NPc.sigWait = false := rfl
@[simp] theorem told_rdEv : told NPc.rdEv = false := rfl
@[simp] theorem told_rdMagic : told NPc.rdMagic = false := rfl
@[simp] theorem told_rdStat : told NPc.rdStat = false := rfl
@[simp] theorem told_getImg : told NPc.getImg = false := rfl
@[simp] theorem told_vsEv : told NPc.vsEv = false := rfl
@[simp] theorem told_vsMagic : told NPc.vsMagic = false := rfl
@[simp] theorem told_vsStat : told NPc.vsStat = false := rfl
@[simp] theorem told_chk : told NPc.chk = true := rfl
@[simp] theorem told_read : told NPc.read = true := rfl
@[simp] theorem told_await : told NPc.await = true := rfl
@[simp] theorem told_branch : told NPc.branch = true := rfl
@[simp] theorem told_work : told NPc.work = true := rfl
@[simp] theorem told_fiEv : told NPc.fiEv = true := rfl
@[simp] theorem told_fiMagic : told NPc.fiMagic = true := rfl
@[simp] theorem told_fiStat : told NPc.fiStat = true := rfl
@[simp] theorem told_ended : told NPc.ended = true := rfl
/-- The application core offers the update. -/
def offering : APc → Bool
  | .stEv | .stMagic | .stStat | .dnChk | .dnRead | .dnAwait => true
  | _ => false
@[simp] theorem offering_getImg : offering APc.getImg = false := rfl
@[simp] theorem offering_release : offering APc.release = false := rfl
@[simp] theorem offering_sig : offering APc.sig = false := rfl
@[simp] theorem offering_sigWait : offering APc.sigWait = false := rfl
@[simp] theorem offering_verChk : offering APc.verChk = false := rfl
@[simp] theorem offering_verRead : offering APc.verRead = false := rfl
@[simp] theorem offering_verAwait : offering APc.verAwait = false := rfl
@[simp] theorem offering_decide : offering APc.decide = false := rfl
@[simp] theorem offering_verify : offering APc.verify = false := rfl
@[simp] theorem offering_load : offering APc.load = false := rfl
@[simp] theorem offering_fill : offering APc.fill = false := rfl
@[simp] theorem offering_stEv : offering APc.stEv = true := rfl
@[simp] theorem offering_stMagic : offering APc.stMagic = true := rfl
@[simp] theorem offering_stStat : offering APc.stStat = true := rfl
@[simp] theorem offering_dnChk : offering APc.dnChk = true := rfl
@[simp] theorem offering_dnRead : offering APc.dnRead = true := rfl
@[simp] theorem offering_dnAwait : offering APc.dnAwait = true := rfl
@[simp] theorem offering_btEv : offering APc.btEv = false := rfl
@[simp] theorem offering_btMagic : offering APc.btMagic = false := rfl
@[simp] theorem offering_btStat : offering APc.btStat = false := rfl
@[simp] theorem offering_syChk : offering APc.syChk = false := rfl
@[simp] theorem offering_syRead : offering APc.syRead = false := rfl
@[simp] theorem offering_syAwait : offering APc.syAwait = false := rfl
@[simp] theorem offering_ended : offering APc.ended = false := rfl
/-- The application core lets the network core boot. -/
def final : APc → Bool
  | .btEv | .btMagic | .btStat | .syChk | .syRead | .syAwait | .ended => true
  | _ => false
@[simp] theorem final_getImg : final APc.getImg = false := rfl
@[simp] theorem final_release : final APc.release = false := rfl
@[simp] theorem final_sig : final APc.sig = false := rfl
@[simp] theorem final_sigWait : final APc.sigWait = false := rfl
@[simp] theorem final_verChk : final APc.verChk = false := rfl
@[simp] theorem final_verRead : final APc.verRead = false := rfl
@[simp] theorem final_verAwait : final APc.verAwait = false := rfl
@[simp] theorem final_decide : final APc.decide = false := rfl
@[simp] theorem final_verify : final APc.verify = false := rfl
@[simp] theorem final_load : final APc.load = false := rfl
@[simp] theorem final_fill : final APc.fill = false := rfl
@[simp] theorem final_stEv : final APc.stEv = false := rfl
@[simp] theorem final_stMagic : final APc.stMagic = false := rfl
@[simp] theorem final_stStat : final APc.stStat = false := rfl
@[simp] theorem final_dnChk : final APc.dnChk = false := rfl
@[simp] theorem final_dnRead : final APc.dnRead = false := rfl
@[simp] theorem final_dnAwait : final APc.dnAwait = false := rfl
@[simp] theorem final_btEv : final APc.btEv = true := rfl
@[simp] theorem final_btMagic : final APc.btMagic = true := rfl
@[simp] theorem final_btStat : final APc.btStat = true := rfl
@[simp] theorem final_syChk : final APc.syChk = true := rfl
@[simp] theorem final_syRead : final APc.syRead = true := rfl
@[simp] theorem final_syAwait : final APc.syAwait = true := rfl
@[simp] theorem final_ended : final APc.ended = true := rfl

@[simp] theorem bits1 : bits READY VERSION = false := by decide
@[simp] theorem bits2 : bits READY DONE = false := by decide
@[simp] theorem bits3 : bits VERSION DONE = false := by decide
@[simp] theorem bits4 : bits BOOT DONE = false := by decide
@[simp] theorem bits5 : bits BOOT VERSION = false := by decide
@[simp] theorem bits6 : bits DONE VERSION = false := by decide
@[simp] theorem boot_eq : (BOOT = START) = False := by decide
@[simp] theorem start_eq : (START = BOOT) = False := by decide

theorem offer_of (e : Env) (h : e.netVer < V e) : e.found = true ∧ e.netVer < e.appVer := by
  unfold V at h
  cases hf : e.found <;> simp_all

theorem not_offer (e : Env) (h : V e ≤ e.netVer) : ¬ Offer e := by
  rintro ⟨h1, -, -, h2⟩
  simp [V, h1] at h
  omega

/-- The first part of the invariant without timeouts: the versions. -/
structure Ver (e : Env) (s : S) : Prop where
  s1 : pastSig s.npc = true → s.nShm = true
  av : s.apc ≠ .getImg → s.app.version = V e
  nv : hasVer s.npc = true → s.nUpd = false → s.net.version = e.netVer
  vb : bits s.net.status VERSION = true → told s.npc = true
  dc : s.apc = .verRead ∨ s.apc = .decide → told s.npc = true
  db : bits s.net.status DONE = true → s.nUpd = true

theorem ver_app (e : Env) (j : Mem) (s : S) (h : Ver e s) : Ver e (appStep e false j s) := by
  obtain ⟨s1, av, nv, vb, dc, db⟩ := h
  constructor
  · clear av nv vb dc db
    cases hp : s.apc <;> simp only [appStep, hp] <;> (repeat' split) <;> simp_all
  · clear s1 nv vb dc db
    cases hp : s.apc <;> simp only [appStep, hp] <;> (repeat' split) <;> simp_all [V]
  · clear s1 av vb dc db
    cases hp : s.apc <;> simp only [appStep, hp] <;> (repeat' split) <;> simp_all
  · clear s1 av nv dc db
    cases hp : s.apc <;> simp only [appStep, hp] <;> (repeat' split) <;> simp_all
  · clear s1 av nv db
    cases hp : s.apc <;> simp only [appStep, hp] <;> (repeat' split) <;> simp_all
  · clear s1 av nv vb dc
    cases hp : s.apc <;> simp only [appStep, hp] <;> (repeat' split) <;> simp_all

theorem ver_net (e : Env) (j : Mem) (s : S) (h : Ver e s) : Ver e (netStep e false j s) := by
  obtain ⟨s1, av, nv, vb, dc, db⟩ := h
  constructor
  · clear av nv vb dc db
    cases hp : s.npc <;> simp only [netStep, hp] <;> (repeat' split) <;> simp_all
  · clear s1 nv vb dc db
    cases hp : s.npc <;> simp only [netStep, hp] <;> (repeat' split) <;> simp_all
  · clear av vb dc db
    cases hp : s.npc <;> simp only [netStep, hp] <;> (repeat' split) <;> simp_all
  · clear s1 av nv dc db
    cases hp : s.npc <;> simp only [netStep, hp] <;> (repeat' split) <;> simp_all
  · clear s1 av nv vb db
    cases hp : s.npc <;> simp only [netStep, hp] <;> (repeat' split) <;> simp_all
  · clear s1 av nv vb dc
    cases hp : s.npc <;> simp only [netStep, hp] <;> (repeat' split) <;> simp_all

/-- The second part: an update is offered exactly when there is one. -/
structure Off (e : Env) (s : S) : Prop where
  o1 : s.apc = .verify ∨ s.apc = .load ∨ s.apc = .fill → e.netVer < V e
  o2 : offering s.apc = true → Offer e
  st : s.app.status = START → Offer e
  dr : s.apc = .dnRead → s.nUpd = true
  o3 : final s.apc = true → Offer e → s.nUpd = true
  sb : bits s.app.status (START ||| BOOT) = true → s.app.status = START ∨ (s.app.status = BOOT ∧ s.apc = .ended)

theorem decides (e : Env) (s : S) (hi : Inv e s) (v : Ver e s) (hp : s.apc = .decide) :
    s.app.version = V e ∧ s.net.version = e.netVer := by
  have ht := v.dc (Or.inr hp)
  have hh : hasVer s.npc = true := by
    cases hq : s.npc <;> simp_all
  refine ⟨v.av (by simp [hp]), v.nv hh ?_⟩
  cases hu : s.nUpd with
  | false => rfl
  | true => have := (hi.f hu).2.2.2; simp [hp] at this

theorem off_app (e : Env) (j : Mem) (s : S) (hs : e.sync = false) (hi : Inv e s) (v : Ver e s) (h : Off e s) :
    Off e (appStep e false j s) := by
  have hd := decides e s hi v
  have hv := hi.v
  have db := v.db
  have ho := offer_of e
  have hn := not_offer e
  obtain ⟨o1, o2, st, dr, o3, sb⟩ := h
  clear hi v
  constructor
  · clear o2 st dr o3 sb db hv ho hn
    cases hp : s.apc <;> simp only [appStep, hp] <;> (repeat' split) <;> simp_all
  · clear st dr o3 sb db hn hd
    cases hp : s.apc <;> simp only [appStep, hp] <;> (repeat' split) <;> simp_all [Offer]
  · clear o1 dr o3 sb db hv ho hn hd
    cases hp : s.apc <;> simp only [appStep, hp] <;> (repeat' split) <;> simp_all
  · clear o1 o2 st o3 sb hv ho hn hd
    cases hp : s.apc <;> simp only [appStep, hp] <;> (repeat' split) <;> simp_all
  · clear o1 o2 st sb db hv ho
    have hv' : e.valid = false → ¬ Offer e := by intro h; simp [Offer, h]
    have hr' : e.readOk = false → ¬ Offer e := by intro h; simp [Offer, h]
    cases hp : s.apc <;> simp only [appStep, hp] <;> (repeat' split) <;> simp_all
  · clear o1 o2 st dr o3 db hv ho hn hd
    cases hp : s.apc <;> simp only [appStep, hp] <;> (repeat' split) <;> simp_all <;>
      first | exact sb | exact fun h => Or.inl (sb h)

theorem off_net (e : Env) (t : Bool) (j : Mem) (s : S) (h : Off e s) : Off e (netStep e t j s) := by
  obtain ⟨o1, o2, st, dr, o3, sb⟩ := h
  constructor
  · clear o2 st dr o3 sb
    cases hp : s.npc <;> simp only [netStep, hp] <;> (repeat' split) <;> simp_all
  · clear o1 st dr o3 sb
    cases hp : s.npc <;> simp only [netStep, hp] <;> (repeat' split) <;> simp_all
  · clear o1 o2 dr o3 sb
    cases hp : s.npc <;> simp only [netStep, hp] <;> (repeat' split) <;> simp_all
  · clear o1 o2 st o3 sb
    cases hp : s.npc <;> simp only [netStep, hp] <;> (repeat' split) <;> simp_all
  · clear o1 o2 st dr sb
    cases hp : s.npc <;> simp only [netStep, hp] <;> (repeat' split) <;> simp_all
  · clear o1 o2 st dr o3
    cases hp : s.npc <;> simp only [netStep, hp] <;> (repeat' split) <;> simp_all

/-- The third part: the network core updates exactly when an update is offered. -/
structure Fin (e : Env) (s : S) : Prop where
  rd : s.npc = .read → s.app.status = START ∨ (s.app.status = BOOT ∧ s.apc = .ended)
  br : s.npc = .branch → (s.got = START ∧ Offer e) ∨ (s.got = BOOT ∧ ¬ Offer e)
  fi : pre s.npc = false → (s.nUpd = true ↔ Offer e)

theorem fin_app (e : Env) (j : Mem) (s : S) (hs : e.sync = false) (h : Fin e s) : Fin e (appStep e false j s) := by
  obtain ⟨rd, br, fi⟩ := h
  constructor
  · clear br fi
    cases hp : s.apc <;> simp only [appStep, hp] <;> (repeat' split) <;> simp_all
  · clear rd fi
    cases hp : s.apc <;> simp only [appStep, hp] <;> (repeat' split) <;> simp_all
  · clear rd br
    cases hp : s.apc <;> simp only [appStep, hp] <;> (repeat' split) <;> simp_all

theorem fin_net (e : Env) (j : Mem) (s : S) (hi : Inv e s) (v : Ver e s) (o : Off e s) (h : Fin e s) :
    Fin e (netStep e false j s) := by
  have hg := hi.g
  have sb := o.sb
  have st := o.st
  have o3 := o.o3
  have s1 := v.s1
  obtain ⟨rd, br, fi⟩ := h
  clear hi v o
  constructor
  · clear br fi hg st o3 s1
    cases hp : s.npc <;> simp only [netStep, hp] <;> (repeat' split) <;> simp_all
  · clear br fi sb s1
    cases hp : s.npc <;> simp only [netStep, hp] <;> (repeat' split) <;> simp_all
    rcases rd with h1 | ⟨h1, h2⟩
    · exact Or.inl ⟨h1, st h1⟩
    · refine Or.inr ⟨h1, fun ho => ?_⟩
      simp_all
  · clear rd sb st o3
    cases hp : s.npc <;> simp only [netStep, hp] <;> (repeat' split) <;> simp_all

/-- All parts. -/
structure All (e : Env) (s : S) : Prop where
  i : Inv e s
  v : Ver e s
  o : Off e s
  f : Fin e s

theorem all_run (e : Env) (hs : e.sync = false) (l : List Act) :
    ∀ s, All e s → (∀ x ∈ l, x.noTimeout) → All e (run e s l) := by
  induction l with
  | nil => intro s h _; exact h
  | cons x r ih =>
    intro s h hl
    refine ih _ ?_ fun y hy => hl y (List.mem_cons_of_mem _ hy)
    have hx := hl x List.mem_cons_self
    cases x with
    | app t j =>
      obtain rfl : t = false := hx
      exact ⟨inv_app e false j s h.i, ver_app e j s h.v, off_app e j s hs h.i h.v h.o, fin_app e j s hs h.f⟩
    | net t j =>
      obtain rfl : t = false := hx
      exact ⟨inv_net e false j s h.i, ver_net e j s h.v, off_net e false j s h.o, fin_net e j s h.i h.v h.o h.f⟩

theorem fresh_ne (x : BitVec 32) (h : x &&& (START ||| BOOT) = 0#32) : x ≠ START := by
  rintro rfl
  revert h
  decide

theorem fresh_bits (x m n : BitVec 32) (h : x &&& m = 0#32) (hm : m &&& n = n) : bits x n = false := by
  have : x &&& n = 0#32 := by rw [← hm, ← BitVec.and_assoc, h, BitVec.zero_and]
  simp [bits, this]

theorem all_reset (e : Env) (app net : Info) (data : Mem) (h : Fresh app net) : All e (reset app net data) := by
  have h1 := fresh_ne _ h.1
  have h2 := fresh_bits _ _ (START ||| BOOT) h.1 (by decide)
  have h3 := fresh_bits _ _ VERSION h.2 (by decide)
  have h4 := fresh_bits _ _ DONE h.2 (by decide)
  refine ⟨inv_reset e app net data h1, ?_, ?_, ?_⟩ <;> constructor <;> simp_all [reset]

/-- **The network core updates exactly when the application core has a valid and newer image**, in every interleaving, without
`NRF_SYNC_CORES`, if no wait ends with a timeout and shared memory has no leftovers. -/
theorem update_iff (e : Env) (app net : Info) (data : Mem) (l : List Act) (hs : e.sync = false) (h : Fresh app net)
    (hl : ∀ x ∈ l, x.noTimeout) (hd : pre (run e (reset app net data) l).npc = false) :
    (run e (reset app net data) l).nUpd = true ↔ Offer e :=
  (all_run e hs l _ (all_reset e app net data h) hl).f.fi hd

/-- Under the same conditions the application core boots an updated network core: it does not go on before the network core has reported
the end of its update. -/
theorem app_after_update (e : Env) (app net : Info) (data : Mem) (l : List Act) (hs : e.sync = false) (h : Fresh app net)
    (hl : ∀ x ∈ l, x.noTimeout) (ho : Offer e) (hd : (run e (reset app net data) l).apc = .ended) :
    (run e (reset app net data) l).nUpd = true :=
  (all_run e hs l _ (all_reset e app net data h) hl).o.o3 (by simp [hd]) ho

/-- The application core has left `hal_net_signal_wait_ready`. -/
def ready : APc → Bool
  | .getImg | .release | .sig | .sigWait => false
  | _ => true
@[simp] theorem ready_getImg : ready APc.getImg = false := rfl
@[simp] theorem ready_release : ready APc.release = false := rfl
@[simp] theorem ready_sig : ready APc.sig = false := rfl
@[simp] theorem ready_sigWait : ready APc.sigWait = false := rfl
@[simp] theorem ready_verChk : ready APc.verChk = true := rfl
@[simp] theorem ready_verRead : ready APc.verRead = true := rfl
@[simp] theorem ready_verAwait : ready APc.verAwait = true := rfl
@[simp] theorem ready_decide : ready APc.decide = true := rfl
@[simp] theorem ready_verify : ready APc.verify = true := rfl
@[simp] theorem ready_load : ready APc.load = true := rfl
@[simp] theorem ready_fill : ready APc.fill = true := rfl
@[simp] theorem ready_stEv : ready APc.stEv = true := rfl
@[simp] theorem ready_stMagic : ready APc.stMagic = true := rfl
@[simp] theorem ready_stStat : ready APc.stStat = true := rfl
@[simp] theorem ready_dnChk : ready APc.dnChk = true := rfl
@[simp] theorem ready_dnRead : ready APc.dnRead = true := rfl
@[simp] theorem ready_dnAwait : ready APc.dnAwait = true := rfl
@[simp] theorem ready_btEv : ready APc.btEv = true := rfl
@[simp] theorem ready_btMagic : ready APc.btMagic = true := rfl
@[simp] theorem ready_btStat : ready APc.btStat = true := rfl
@[simp] theorem ready_syChk : ready APc.syChk = true := rfl
@[simp] theorem ready_syRead : ready APc.syRead = true := rfl
@[simp] theorem ready_syAwait : ready APc.syAwait = true := rfl
@[simp] theorem ready_ended : ready APc.ended = true := rfl

structure Sync (s : S) : Prop where
  sh : ready s.apc = true → s.aShm = true
  nb : bits s.net.status (DONE ||| BOOT) = true → s.npc = .ended
  sr : s.apc = .syRead ∨ s.apc = .ended → s.npc = .ended

@[simp] theorem bits7 : bits READY (DONE ||| BOOT) = false := by decide
@[simp] theorem bits8 : bits VERSION (DONE ||| BOOT) = false := by decide

theorem sync_app (e : Env) (j : Mem) (s : S) (hs : e.sync = true) (h : Sync s) : Sync (appStep e false j s) := by
  obtain ⟨sh, nb, sr⟩ := h
  constructor
  · clear nb sr
    cases hp : s.apc <;> simp only [appStep, hp] <;> (repeat' split) <;> simp_all
  · clear sr
    cases hp : s.apc <;> simp only [appStep, hp] <;> (repeat' split) <;> simp_all
    all_goals (rename_i h1; intro h; simp_all)
  · cases hp : s.apc <;> simp only [appStep, hp] <;> (repeat' split) <;> simp_all

theorem sync_net (e : Env) (j : Mem) (s : S) (h : Sync s) : Sync (netStep e false j s) := by
  obtain ⟨sh, nb, sr⟩ := h
  constructor
  · clear nb sr
    cases hp : s.npc <;> simp only [netStep, hp] <;> (repeat' split) <;> simp_all
  · clear sr
    cases hp : s.npc <;> simp only [netStep, hp] <;> (repeat' split) <;> simp_all
  · cases hp : s.npc <;> simp only [netStep, hp] <;> (repeat' split) <;> simp_all

/-- With `NRF_SYNC_CORES` the application core takes the shared memory away from the network core (`hal_shm_cleanup`) only when the network core
has finished, if no wait ends with a timeout. -/
theorem sync_cleanup (e : Env) (app net : Info) (data : Mem) (l : List Act) (hs : e.sync = true) (h : Fresh app net)
    (hl : ∀ x ∈ l, x.noTimeout) (hd : (run e (reset app net data) l).apc = .ended) :
    (run e (reset app net data) l).npc = .ended := by
  have h4 := fresh_bits _ _ (DONE ||| BOOT) h.2 (by decide)
  have h0 : Sync (reset app net data) := by constructor <;> simp_all [reset]
  have : ∀ (l : List Act) s, Sync s → (∀ x ∈ l, x.noTimeout) → Sync (run e s l) := by
    intro l
    induction l with
    | nil => intro s h _; exact h
    | cons x r ih =>
      intro s h hl
      refine ih _ ?_ fun y hy => hl y (List.mem_cons_of_mem _ hy)
      have hx := hl x List.mem_cons_self
      cases x with
      | app t j =>
        obtain rfl : t = false := hx
        exact sync_app e j s hs h
      | net t j =>
        obtain rfl : t = false := hx
        exact sync_net e j s h
  exact (this l _ h0 hl).sr (Or.inr hd)

/-- Both cores wait and nobody has sent an event. -/
theorem stuck (e : Env) (l : List Act) :
    ∀ s, s.apc = .dnAwait → s.npc = .await → s.evA = false → s.evN = false → (∀ x ∈ l, x.noTimeout) → run e s l = s := by
  induction l with
  | nil => intro s _ _ _ _ _; rfl
  | cons x r ih =>
    intro s h1 h2 h3 h4 hl
    have hx := hl x List.mem_cons_self
    have : step e s x = s := by
      cases x with
      | app t j => obtain rfl : t = false := hx; simp [step, appStep, h1, h3]
      | net t j => obtain rfl : t = false := hx; simp [step, netStep, h2, h4]
    rw [run, this]
    exact ih s h1 h2 h3 h4 fun y hy => hl y (List.mem_cons_of_mem _ hy)

/-- The image that is copied is the one that was verified, unless it is in the update partition of external flash. -/
theorem copied_opened (ext u a : Bool) (o : Loc) (h : opened ext u a = some o) : copied ext o = o ↔ ¬ (ext = true ∧ u = true) := by
  revert h
  cases ext <;> cases u <;> cases a <;> cases o <;> simp [opened, copied]

/-- Nothing is opened only if there is nothing. -/
theorem opened_none (ext u a : Bool) : opened ext u a = none ↔ u = false ∧ (ext = true → a = false) := by
  cases ext <;> cases u <;> cases a <;> simp [opened]

theorem round_toNat (x : BitVec 32) : (x &&& ~~~3#32).toNat = x.toNat / 4 * 4 := by
  have : x &&& ~~~3#32 = x >>> 2 <<< 2 := by
    ext i hi
    simp only [BitVec.getElem_and, BitVec.getElem_not, BitVec.getElem_shiftLeft, BitVec.getLsbD_ushiftRight]
    by_cases h2 : i < 2
    · have : i = 0 ∨ i = 1 := by omega
      rcases this with rfl | rfl <;> simp
    · have h5 : 2 + (i - 2) = i := by omega
      have h6 : Nat.testBit 3 i = false :=
        Nat.testBit_lt_two_pow (Nat.lt_of_lt_of_le (by decide : 3 < 2 ^ 2) (Nat.pow_le_pow_right (by decide) (by omega)))
      simp [h2, h5, BitVec.getLsbD_eq_getElem hi, BitVec.getElem_eq_testBit_toNat (3#32), h6]
  rw [this, BitVec.toNat_shiftLeft, BitVec.toNat_ushiftRight, Nat.shiftLeft_eq, Nat.shiftRight_eq_div_pow]
  have := x.isLt
  omega

theorem net_size : FLASH_SIZE_NET.toNat = 0x40000 := by decide

theorem sizeOk_iff (hdr fw : BitVec 32) (hh : hdr ≤ FLASH_SIZE_NET) :
    sizeOk hdr fw = true ↔ fw.toNat < FLASH_SIZE_NET.toNat - hdr.toNat := by
  rw [sizeOk, decide_eq_true_iff, BitVec.lt_def, BitVec.toNat_sub_of_le hh]

/-- An image that passes the test fits in the shared data, also when its length is rounded up. -/
theorem load_fits (hdr fw : BitVec 32) (hh : hdr ≤ FLASH_SIZE_NET) (h : sizeOk hdr fw = true) :
    (readLen hdr fw).toNat ≤ FLASH_SIZE_NET.toNat ∧ (hdr + fw).toNat = hdr.toNat + fw.toNat ∧
      (hdr + fw).toNat ≤ (readLen hdr fw).toNat := by
  have h1 := (sizeOk_iff hdr fw hh).1 h
  have h2 : (hdr + fw).toNat = hdr.toNat + fw.toNat := by
    rw [BitVec.toNat_add]
    rw [net_size] at h1
    omega
  have h3 : (hdr + fw + 3#32).toNat = hdr.toNat + fw.toNat + 3 := by
    rw [BitVec.toNat_add, h2, BitVec.toNat_ofNat]
    rw [net_size] at h1
    omega
  rw [readLen, round_toNat, h3, h2]
  rw [net_size] at h1 ⊢
  omega

/-- Which addresses are protected: whole blocks from the one with the start. -/
theorem protect_spec (fl start len r n : BitVec 32) (hw : start.toNat + len.toNat < 2 ^ 32)
    (h : protect fl start len = some (r, n)) (a : Nat) :
    (r.toNat ≤ a / 0x4000 ∧ a / 0x4000 < r.toNat + n.toNat) ↔
      start.toNat / 0x4000 * 0x4000 ≤ a ∧
        a < start.toNat / 0x4000 * 0x4000 + min len.toNat (fl.toNat - start.toNat) / 0x4000 * 0x4000 := by
  have hs : (start + len).toNat = start.toNat + len.toNat := by rw [BitVec.toNat_add]; omega
  have hb : SPU_BLOCK_SIZE.toNat = 0x4000 := by decide
  simp only [protect, BitVec.lt_def, hs] at h
  split at h
  · cases h
  · rename_i h1
    obtain ⟨rfl, rfl⟩ := by simpa using h
    have hl : (if fl.toNat < start.toNat + len.toNat then fl - start else len).toNat = min len.toNat (fl.toNat - start.toNat) := by
      split
      · rw [BitVec.toNat_sub_of_le (by rw [BitVec.le_def]; omega)]; omega
      · omega
    rw [BitVec.toNat_udiv, BitVec.toNat_udiv, hl, hb]
    generalize min len.toNat (fl.toNat - start.toNat) = m
    omega

/-- A bootloader of whole blocks is protected. -/
theorem protect_all (fl start len : BitVec 32) (hw : start.toNat + len.toNat ≤ fl.toNat) (h1 : start.toNat % 0x4000 = 0)
    (h2 : len.toNat % 0x4000 = 0) : ∃ r n, protect fl start len = some (r, n) ∧
      ∀ a, start.toNat ≤ a → a < start.toNat + len.toNat → r.toNat ≤ a / 0x4000 ∧ a / 0x4000 < r.toNat + n.toNat := by
  cases hp : protect fl start len with
  | none =>
    simp only [protect, BitVec.lt_def] at hp
    split at hp
    · omega
    · cases hp
  | some x =>
    obtain ⟨r, n⟩ := x
    refine ⟨r, n, rfl, fun a ha hb => ?_⟩
    have := fl.isLt
    rw [protect_spec fl start len r n (by omega) hp a]
    have : min len.toNat (fl.toNat - start.toNat) = len.toNat := by omega
    rw [this]
    omega

/-- The last, incomplete block of a bootloader is not protected. -/
theorem protect_tail (fl start len r n : BitVec 32) (hw : start.toNat + len.toNat ≤ fl.toNat) (h1 : start.toNat % 0x4000 = 0)
    (h : protect fl start len = some (r, n)) (a : Nat) (ha : start.toNat + len.toNat / 0x4000 * 0x4000 ≤ a) :
    ¬ (r.toNat ≤ a / 0x4000 ∧ a / 0x4000 < r.toNat + n.toNat) := by
  have := fl.isLt
  rw [protect_spec fl start len r n (by omega) h a]
  have : min len.toNat (fl.toNat - start.toNat) = len.toNat := by omega
  rw [this]
  omega

/-- Places that need an answer of the network core. -/
def met : APc → Bool
  | .verChk | .verRead | .verAwait | .decide | .verify | .load | .fill | .stEv | .stMagic | .stStat | .dnChk | .dnRead | .dnAwait => true
  | _ => false

structure Met (s : S) : Prop where
  a : met s.apc = true → s.aShm = true
  b : s.app.status = START → s.aShm = true

theorem met_step (e : Env) (s : S) (x : Act) (h : Met s) : Met (step e s x) := by
  obtain ⟨a, b⟩ := h
  cases x with
  | app t j =>
    cases hp : s.apc <;> simp only [hp] at a <;> simp only [step, appStep, hp] <;> (repeat' split) <;> constructor <;>
      simp_all [met, boot_ne]
  | net t j =>
    cases hp : s.npc <;> simp only [step, netStep, hp] <;> (repeat' split) <;> constructor <;> simp_all

/-- **The application core offers an update only after an answer of the network core**: with `enableShm` unset, that is after a timeout of the first
signals, it neither loads the image into shared memory nor sets the status. -/
theorem offer_needs_core (e : Env) (app net : Info) (data : Mem) (l : List Act) (h : app.status ≠ START)
    (hu : (run e (reset app net data) l).app.status = START ∨ (run e (reset app net data) l).apc = .fill) :
    (run e (reset app net data) l).aShm = true := by
  have key : ∀ l s, Met s → Met (run e s l) := by
    intro l
    induction l with
    | nil => intro s h; exact h
    | cons x r ih => intro s h; exact ih _ (met_step e s x h)
  obtain ⟨a, b⟩ := key l (reset app net data) ⟨fun h => by simp [reset, met] at h, fun h' => absurd h' h⟩
  rcases hu with hu | hu
  · exact b hu
  · exact a (by rw [hu]; rfl)

/-- Where the network core is without the magic of the application core: it has not read a status. -/
structure NoMagicN (s : S) : Prop where
  r : s.app.magic = false → s.npc ≠ .read
  b : s.app.magic = false → s.npc = .branch → s.got = TIMEOUT
  u : s.app.magic = false → s.nUpd = false

theorem nomagicN_step (e : Env) (s : S) (x : Act) (h : NoMagicN s) : NoMagicN (step e s x) := by
  obtain ⟨r, b, u⟩ := h
  cases x with
  | app t j => cases hp : s.apc <;> simp only [step, appStep, hp] <;> (repeat' split) <;> constructor <;> simp_all
  | net t j => cases hp : s.npc <;> simp only [step, netStep, hp] <;> (repeat' split) <;> constructor <;> simp_all [timeout_ne.symm]

/-- **Without `SHAREM_MEM_MAGIC` the status of the application core counts for nothing**: whatever is in shared memory, and whatever times out. -/
theorem magic_guards_net (e : Env) (app net : Info) (data : Mem) (l : List Act) (hm : (run e (reset app net data) l).app.magic = false) :
    (run e (reset app net data) l).nUpd = false := by
  have key : ∀ l s, NoMagicN s → NoMagicN (run e s l) := by
    intro l
    induction l with
    | nil => intro s h; exact h
    | cons x r ih => intro s h; exact ih _ (nomagicN_step e s x h)
  exact (key l _ (by constructor <;> simp [reset])).u hm

/-- The application core has yet to learn a version. -/
def asking : APc → Bool
  | .getImg | .release | .sig | .sigWait | .verChk | .verAwait => true
  | _ => false

/-- Without the magic of the network core, and without timeouts, the application core asks. -/
structure NoMagicA (st : BitVec 32) (s : S) : Prop where
  p : s.net.magic = false → asking s.apc = true
  s : s.net.magic = false → s.app.status = st

theorem nomagicA_step (e : Env) (st : BitVec 32) (s : S) (x : Act) (hx : x.noTimeout) (h : NoMagicA st s) : NoMagicA st (step e s x) := by
  obtain ⟨p, q⟩ := h
  cases x with
  | app t j =>
    obtain rfl : t = false := hx
    cases hp : s.apc <;> simp only [step, appStep, hp] <;> (repeat' split) <;> constructor <;> simp_all [asking]
  | net t j =>
    obtain rfl : t = false := hx
    cases hp : s.npc <;> simp only [step, netStep, hp] <;> (repeat' split) <;> constructor <;> simp_all

/-- **Without `SHAREM_MEM_MAGIC` the status of the network core counts for nothing**: if no wait ends with a timeout, the application core neither
decides nor writes its status before the network core has written the magic. -/
theorem magic_guards_app (e : Env) (app net : Info) (data : Mem) (l : List Act) (hl : ∀ x ∈ l, x.noTimeout)
    (hm : (run e (reset app net data) l).net.magic = false) :
    asking (run e (reset app net data) l).apc = true ∧ (run e (reset app net data) l).app.status = app.status := by
  have key : ∀ (l : List Act) s, (∀ x ∈ l, x.noTimeout) → NoMagicA app.status s → NoMagicA app.status (run e s l) := by
    intro l
    induction l with
    | nil => intro s _ h; exact h
    | cons x r ih =>
      intro s hl h
      exact ih _ (fun y hy => hl y (List.mem_cons_of_mem _ hy)) (nomagicA_step e _ s x (hl x List.mem_cons_self) h)
  have := key l (reset app net data) hl (by constructor <;> simp [reset, asking])
  exact ⟨this.p hm, this.s hm⟩

end Verif.Nrf
