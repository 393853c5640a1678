import Verif.AhciPort

/-!
# Ports of an AHCI controller: theorems

The addresses of a port are changed only while it is stopped (`enable_addr`), ports have memory of their own (`port_placed`, `areas_apart`), and
after `sata_disable` no port transfers anything any more (`disable_quiet`), for all behaviours of the controller in time, or the machine
stops (`panic`). Findings: the bit for staggered spin-up is never set (`never_spun`), ports are started without a link (`start_no_link`) and together
with the reception of FIS (`start_together`), reception that is just being enabled is not disabled (`fre_race`); a fifth disk makes the check of drive numbers accept a drive that does not exist (`drive_four`).
-/

namespace Verif

namespace AhciPort

/-- The controller has followed. -/
def Settled (c : Cmd) : Prop := c.cr = c.st ∧ c.fr = c.fre

/-- The port cannot access memory: stopped, and the controller has followed. -/
structure Quiet (c : Cmd) : Prop where
  st : c.st = false
  cr : c.cr = false
  fre : c.fre = false
  fr : c.fr = false

/-- No command is executed, and none will be. -/
def NoCmd (c : Cmd) : Prop := c.st = false ∧ c.cr = false

theorem rd_cases (w : World) (p : Port) : (rd w p).cmd = p.cmd ∨ (rd w p).cmd = settle p.cmd := by
  unfold rd
  dsimp only
  split
  · exact Or.inr rfl
  · exact Or.inl rfl

theorem rd_st (w : World) (p : Port) : (rd w p).cmd.st = p.cmd.st := by
  rcases rd_cases w p with h | h <;> rw [h] <;> rfl

theorem rd_fre (w : World) (p : Port) : (rd w p).cmd.fre = p.cmd.fre := by
  rcases rd_cases w p with h | h <;> rw [h] <;> rfl

theorem rd_sud (w : World) (p : Port) : (rd w p).cmd.sud = p.cmd.sud := by
  rcases rd_cases w p with h | h <;> rw [h] <;> rfl

theorem rd_log (w : World) (p : Port) : (rd w p).log = p.log := rfl

theorem rd_settled {w : World} {p : Port} (h : Settled p.cmd) : (rd w p).cmd = p.cmd := by
  rcases rd_cases w p with e | e
  · exact e
  · rw [e]
    unfold settle
    obtain ⟨h1, h2⟩ := h
    generalize p.cmd = c at h1 h2
    cases c
    simp_all

/-- Waiting only reads: the bits that the driver sets stay, and so does the record. -/
theorem wait_keep {w : World} {bit : Cmd → Bool} {n : Nat} {p q : Port} (h : waitClear w bit n p = some q) :
    bit q.cmd = false ∧ q.cmd.st = p.cmd.st ∧ q.cmd.fre = p.cmd.fre ∧ q.cmd.sud = p.cmd.sud ∧ q.log = p.log ∧ q.clb = p.clb ∧ q.fb = p.fb ∧
      (p.cmd.cr = p.cmd.st → q.cmd.cr = q.cmd.st) ∧ (p.cmd.fr = p.cmd.fre → q.cmd.fr = q.cmd.fre) := by
  induction n generalizing p with
  | zero => simp [waitClear] at h
  | succ n ih =>
    unfold waitClear at h
    have k1 : p.cmd.cr = p.cmd.st → (rd w p).cmd.cr = (rd w p).cmd.st := by
      intro hs
      rcases rd_cases w p with e | e <;> rw [e]
      · exact hs
      · rfl
    have k2 : p.cmd.fr = p.cmd.fre → (rd w p).cmd.fr = (rd w p).cmd.fre := by
      intro hs
      rcases rd_cases w p with e | e <;> rw [e]
      · exact hs
      · rfl
    cases hb : bit (rd w p).cmd with
    | true =>
      rw [hb] at h
      obtain ⟨h1, h2, h3, h4, h5, h6, h7, h8, h9⟩ := ih h
      exact ⟨h1, by rw [h2, rd_st], by rw [h3, rd_fre], by rw [h4, rd_sud], by rw [h5, rd_log], by rw [h6]; rfl, by rw [h7]; rfl,
        fun hs => h8 (k1 hs), fun hs => h9 (k2 hs)⟩
    | false =>
      rw [hb] at h
      simp at h
      subst h
      exact ⟨hb, rd_st w p, rd_fre w p, rd_sud w p, rfl, rfl, rfl, k1, k2⟩

theorem wrCmd_off {w : World} {p : Port} {c : Cmd} (h : c.st = false) : (wrCmd w p c).log = p.log := by
  unfold wrCmd
  dsimp only
  rw [h]
  rfl

/-- After a stop that has succeeded no command is executed and no FIS is being received. -/
theorem stop_spec {w : World} {p q : Port} {reg : Cmd} (h : stop w p = some (reg, q)) :
    q.cmd.st = false ∧ q.cmd.cr = false ∧ q.cmd.fr = false ∧ reg.st = false ∧ q.log = p.log ∧ q.cmd.sud = p.cmd.sud ∧ reg.sud = p.cmd.sud ∧
      (p.cmd.fr = p.cmd.fre → q.cmd.fre = false) := by
  unfold stop at h
  dsimp only at h
  -- the stop bit
  obtain ⟨p1, hp1⟩ : ∃ p1, p1 = (if ((rd w p).cmd.st || (rd w p).cmd.cr) = true then
      if (rd w p).cmd.st = true then wrCmd w (rd w p) { (rd w p).cmd with st := false } else rd w p else rd w p) := ⟨_, rfl⟩
  rw [← hp1] at h
  have a1 : p1.cmd.st = false ∧ p1.log = p.log ∧ p1.cmd.fre = p.cmd.fre ∧ p1.cmd.sud = p.cmd.sud ∧ (p.cmd.fr = p.cmd.fre → p1.cmd.fr = p1.cmd.fre) := by
    have kf : p.cmd.fr = p.cmd.fre → (rd w p).cmd.fr = (rd w p).cmd.fre := by
      intro hs
      rcases rd_cases w p with e | e <;> rw [e]
      · exact hs
      · rfl
    cases hst : (rd w p).cmd.st with
    | true =>
      rw [hst] at hp1
      simp at hp1
      subst hp1
      exact ⟨rfl, wrCmd_off rfl, rd_fre w p, rd_sud w p, kf⟩
    | false =>
      rw [hst] at hp1
      simp at hp1
      subst hp1
      exact ⟨hst, rfl, rd_fre w p, rd_sud w p, kf⟩
  cases h2 : waitClear w (·.cr) MAX_TRIES p1 with
  | none => rw [h2] at h; exact absurd h (by simp)
  | some p2 =>
    rw [h2] at h
    dsimp only at h
    obtain ⟨b1, b2, b3, b4, b5, _, _, b8, b9⟩ := wait_keep h2
    have c1 : (rd w p2).cmd.st = false := by rw [rd_st, b2, a1.1]
    have c2 : (rd w p2).cmd.cr = false := by
      rcases rd_cases w p2 with e | e <;> rw [e]
      · exact b1
      · show p2.cmd.st = false
        rw [b2, a1.1]
    have c3 : p.cmd.fr = p.cmd.fre → (rd w p2).cmd.fr = (rd w p2).cmd.fre := by
      intro hs
      have := b9 (a1.2.2.2.2 hs)
      rcases rd_cases w p2 with e | e <;> rw [e]
      · exact this
      · rfl
    rw [if_neg (show ¬ ((rd w p2).cmd.cr || (rd w p2).cmd.st) = true by rw [c1, c2]; simp)] at h
    obtain ⟨p3, hp3⟩ : ∃ p3, p3 = (if (rd w p2).cmd.fr = true then wrCmd w (rd w p2) { (rd w p2).cmd with fre := false } else rd w p2) := ⟨_, rfl⟩
    rw [← hp3] at h
    have d1 : p3.cmd.st = false ∧ p3.cmd.cr = false ∧ p3.log = p.log ∧ p3.cmd.sud = p.cmd.sud ∧ (p.cmd.fr = p.cmd.fre → p3.cmd.fre = false) := by
      cases hfr : (rd w p2).cmd.fr with
      | true =>
        rw [hfr] at hp3
        simp at hp3
        subst hp3
        refine ⟨c1, c2, ?_, ?_, fun _ => rfl⟩
        · rw [wrCmd_off (by exact c1), rd_log, b5, a1.2.1]
        · show (rd w p2).cmd.sud = _
          rw [rd_sud, b4, a1.2.2.2.1]
      | false =>
        rw [hfr] at hp3
        simp at hp3
        subst hp3
        refine ⟨c1, c2, ?_, ?_, fun hs => ?_⟩
        · rw [rd_log, b5, a1.2.1]
        · rw [rd_sud, b4, a1.2.2.2.1]
        · rw [← c3 hs, hfr]
    cases h4 : waitClear w (·.fr) MAX_TRIES p3 with
    | none => rw [h4] at h; exact absurd h (by simp)
    | some p4 =>
      rw [h4] at h
      simp only [Option.some.injEq, Prod.mk.injEq] at h
      obtain ⟨hreg, hq⟩ := h
      subst hq
      obtain ⟨e1, e2, e3, e4, e5, _, _, e8, _⟩ := wait_keep h4
      refine ⟨by rw [e2, d1.1], ?_, e1, ?_, by rw [e5, d1.2.2.1], by rw [e4, d1.2.2.2.1], ?_, fun hs => by rw [e3, d1.2.2.2.2 hs]⟩
      · rw [e8 (by rw [d1.1, d1.2.1]), e2, d1.1]
      · rw [← hreg]; exact c1
      · rw [← hreg, rd_sud, b4, a1.2.2.2.1]

/-- The events are those of before and some more, all of which satisfy a condition. -/
def More (P : Ev → Prop) (l k : List Ev) : Prop := ∃ r, k = l ++ r ∧ ∀ e ∈ r, P e

theorem power_keep {w : World} {cap : Nat} {p : Port} (h : capSud cap = 0) :
    (power w cap p).cmd.st = p.cmd.st ∧ (power w cap p).cmd.fre = p.cmd.fre ∧ (power w cap p).log = p.log ∧ (power w cap p).cmd.sud = p.cmd.sud ∧
      (p.cmd.fr = p.cmd.fre → (power w cap p).cmd.fr = (power w cap p).cmd.fre) := by
  have kf : ∀ p : Port, p.cmd.fr = p.cmd.fre → (rd w p).cmd.fr = (rd w p).cmd.fre := by
    intro p hs
    rcases rd_cases w p with e | e <;> rw [e]
    · exact hs
    · rfl
  unfold power
  dsimp only
  rw [if_neg (show ¬ capSud cap ≠ 0 by omega)]
  cases hc : (rd w p).cmd.cpd with
  | false =>
    simp only [Bool.false_eq_true, if_false]
    exact ⟨rd_st w p, rd_fre w p, rfl, rd_sud w p, kf p⟩
  | true =>
    simp only [if_true]
    refine ⟨?_, ?_, ?_, ?_, fun hs => kf _ (kf _ hs)⟩
    · show (rd w (rd w p)).cmd.st = _
      rw [rd_st, rd_st]
    · show (rd w (rd w p)).cmd.fre = _
      rw [rd_fre, rd_fre]
    · unfold wrCmd
      dsimp only
      rw [if_neg (by cases (rd w (rd w p)).cmd.st <;> simp)]
      rfl
    · show (rd w (rd w p)).cmd.sud = _
      rw [rd_sud, rd_sud]

/-- **Finding.** The flags taken from the capabilities are always 0. -/
theorem cap_lost (cap : Nat) : capSud cap = 0 ∧ sataOnly cap = 0 := by
  have key : ∀ k, 8 ≤ k → (cap &&& 2 ^ k) % 256 = 0 := by
    intro k hk
    apply Nat.eq_of_testBit_eq
    intro i
    rw [show 256 = 2 ^ 8 from rfl, Nat.testBit_mod_two_pow, Nat.testBit_and, Nat.testBit_two_pow, Nat.zero_testBit]
    by_cases hi : i < 8
    · have : ¬ k = i := by omega
      simp [this]
    · simp [hi]
  exact ⟨key 27 (by decide), key 18 (by decide)⟩


/-- What the driver may do to a port: change its addresses while it is quiet, and start it after it has stopped. -/
def Allowed : Ev → Prop
  | .addr c => Quiet c
  | .start c _ => NoCmd c

/-- The ports of the whole procedure: either no disk is there and nothing happens, or these are the events, and the port runs with its own addresses. -/
theorem enable_events {w : World} {cap i : Nat} {a : Areas} {p q : Port} {disk : Bool} (hs : p.cmd.fr = p.cmd.fre)
    (h : enablePort w cap a i p = some (q, disk)) :
    (disk = false ∧ q.log = p.log ∧ q.cmd.st = p.cmd.st ∧ q.cmd.fre = p.cmd.fre ∧ q.cmd.sud = p.cmd.sud) ∨
    (q.clb = clbOf a i ∧ q.fb = fisOf a i ∧ q.cmd.st = true ∧ q.cmd.fre = true ∧ q.cmd.sud = p.cmd.sud ∧ disk = (decide (w.sig = 0x101)) ∧
      ∃ c d e, q.log = p.log ++ [.addr c, .addr c, .start d e] ∧ Quiet c ∧ NoCmd d ∧ d.fre = false) := by
  have hcap := (cap_lost cap).1
  have pk := power_keep (w := w) (p := { p with t := p.t + 1 }) hcap
  unfold enablePort at h
  dsimp only at h
  obtain ⟨p1, hp1⟩ : ∃ p1, p1 = power w cap { p with t := p.t + 1 } := ⟨_, rfl⟩
  rw [← hp1] at h pk
  obtain ⟨det, hdet⟩ : ∃ det, det = (detLoop w 6 p1.t).1 := ⟨_, rfl⟩
  obtain ⟨t, ht⟩ : ∃ t, t = (detLoop w 6 p1.t).2 := ⟨_, rfl⟩
  have hd : detLoop w 6 p1.t = (det, t) := by rw [hdet, ht]
  simp only [hd] at h
  by_cases hz : det = 0
  · rw [if_pos hz] at h
    simp only [Option.some.injEq, Prod.mk.injEq] at h
    obtain ⟨h1, h2⟩ := h
    subst h1
    exact Or.inl ⟨h2.symm, pk.2.2.1, pk.1, pk.2.1, pk.2.2.2.1⟩
  · rw [if_neg hz] at h
    right
    cases hst : stop w { p1 with t := t } with
    | none => rw [hst] at h; exact absurd h (by simp)
    | some r =>
      obtain ⟨reg, p2⟩ := r
      rw [hst] at h
      dsimp only at h
      obtain ⟨s1, s2, s3, s4, s5, s6, s7, s8⟩ := stop_spec hst
      cases hw : waitClear w (·.cr) MAX_TRIES (setAddr p2 (clbOf a i) (fisOf a i)) with
      | none => rw [hw] at h; exact absurd h (by simp)
      | some p3 =>
        rw [hw] at h
        simp only [Option.some.injEq, Prod.mk.injEq] at h
        obtain ⟨h1, h2⟩ := h
        obtain ⟨w1, w2, w3, w4, w5, w6, w7, _, _⟩ := wait_keep hw
        have hfre : p2.cmd.fre = false := s8 (pk.2.2.2.2 hs)
        have hst3 : p3.cmd.st = false := by rw [w2]; exact s1
        refine ⟨?_, ?_, ?_, ?_, ?_, h2.symm, p2.cmd, p3.cmd, w.det p3.t, ?_, ⟨s1, s2, hfre, s3⟩, ⟨hst3, w1⟩, by rw [w3]; exact hfre⟩
        · rw [← h1]; exact w6
        · rw [← h1]; exact w7
        · rw [← h1]
          show (rd w (wrCmd w p3 { reg with fre := true, st := true })).cmd.st = true
          rw [rd_st]; rfl
        · rw [← h1]
          show (rd w (wrCmd w p3 { reg with fre := true, st := true })).cmd.fre = true
          rw [rd_fre]; rfl
        · rw [← h1]
          show (rd w (wrCmd w p3 { reg with fre := true, st := true })).cmd.sud = _
          rw [rd_sud]
          show reg.sud = _
          rw [s7]
          exact pk.2.2.2.1
        · rw [← h1]
          have e1 : (wrCmd w p3 { reg with fre := true, st := true }).log = p3.log ++ [.start p3.cmd (w.det p3.t)] := by
            unfold wrCmd
            dsimp only
            rw [hst3]
            rfl
          have e2 : ∀ r : Port, r.cmd.st = true → ∀ c : Cmd, (wrCmd w r c).log = r.log := by
            intro r hr c
            unfold wrCmd
            dsimp only
            rw [hr]
            simp
          rw [e2 _ (by rw [rd_st]; rfl), rd_log, e1, w5]
          show (p2.log ++ [.addr p2.cmd, .addr p2.cmd]) ++ _ = _
          rw [s5]
          show (p1.log ++ _) ++ _ = _
          rw [pk.2.2.1]
          simp

/-- Addresses are changed only while the port is quiet, and a port is started only after it has stopped, whatever the controller does in time. -/
theorem enable_addr {w : World} {cap i : Nat} {a : Areas} {p q : Port} {disk : Bool} (hs : p.cmd.fr = p.cmd.fre)
    (h : enablePort w cap a i p = some (q, disk)) : More Allowed p.log q.log := by
  rcases enable_events hs h with ⟨_, h2, _⟩ | ⟨_, _, _, _, _, _, c, d, e, hl, hq, hn, _⟩
  · exact ⟨[], by simp [h2], by simp⟩
  · refine ⟨_, hl, ?_⟩
    intro x hx
    simp at hx
    rcases hx with rfl | rfl
    · exact hq
    · exact hn

/-- A disk is used only on a port that runs with its own addresses. -/
theorem enable_disk {w : World} {cap i : Nat} {a : Areas} {p q : Port} (hs : p.cmd.fr = p.cmd.fre)
    (h : enablePort w cap a i p = some (q, true)) :
    q.clb = clbOf a i ∧ q.fb = fisOf a i ∧ q.cmd.st = true ∧ q.cmd.fre = true ∧ w.sig = 0x101 := by
  rcases enable_events hs h with ⟨h1, _⟩ | ⟨h1, h2, h3, h4, _, h6, _⟩
  · exact absurd h1 (by simp)
  · exact ⟨h1, h2, h3, h4, by simpa using h6.symm⟩

/-- **Finding.** The bit that spins up a drive is never set, whatever the capabilities say. -/
theorem never_spun {w : World} {cap i : Nat} {a : Areas} {p q : Port} {disk : Bool} (hs : p.cmd.fr = p.cmd.fre)
    (h : enablePort w cap a i p = some (q, disk)) : q.cmd.sud = p.cmd.sud := by
  rcases enable_events hs h with ⟨_, _, _, _, h5⟩ | ⟨_, _, _, _, h5, _⟩
  · exact h5
  · exact h5

/-- **Finding.** Whenever a port is started, the reception of FIS is not yet enabled (it has to be, AHCI 1.3.1, 10.3.1). -/
theorem start_together {w : World} {cap i : Nat} {a : Areas} {p q : Port} {disk : Bool} (hs : p.cmd.fr = p.cmd.fre) (hl : p.log = [])
    (h : enablePort w cap a i p = some (q, disk)) : ∀ c d, Ev.start c d ∈ q.log → c.fre = false := by
  rcases enable_events hs h with ⟨_, h2, _⟩ | ⟨_, _, _, _, _, _, c, d, e, h7, _, _, hf⟩
  · intro c d hm
    rw [h2, hl] at hm
    exact absurd hm (by simp)
  · intro c' d' hm
    rw [h7, hl] at hm
    simp at hm
    rw [hm.1]; exact hf

/-- A port as the reset leaves it. -/
def fresh : Port :=
  { cmd := { st := false, cr := false, fre := false, fr := false, sud := true, pod := true, cpd := false, icc := false }, clb := 0, fb := 0, t := 0, log := [] }

/-- A controller that follows at once, without a link: `DET` reads 1. -/
def noLink : World := { follow := fun _ => true, det := fun _ => 1, sig := 0xFFFFFFFF }

/-- **Finding.** A port whose link does not come up is started all the same. -/
theorem start_no_link : ∃ q, enablePort noLink 0 ⟨0x10000, 0x20000, 0x30000⟩ 0 fresh = some (q, false) ∧ ∃ c, Ev.start c 1 ∈ q.log := by
  cases h : enablePort noLink 0 ⟨0x10000, 0x20000, 0x30000⟩ 0 fresh with
  | none =>
    have : (enablePort noLink 0 ⟨0x10000, 0x20000, 0x30000⟩ 0 fresh).isSome = true := by decide +kernel
    rw [h] at this
    exact absurd this (by simp)
  | some r =>
    obtain ⟨q, d⟩ := r
    have hev := enable_events (by rfl) h
    have hst : ((enablePort noLink 0 ⟨0x10000, 0x20000, 0x30000⟩ 0 fresh).map (fun r => (r.1.cmd.st, r.2))) = some (true, false) := by decide +kernel
    rw [h] at hst
    simp at hst
    rcases hev with ⟨_, _, h3, _⟩ | ⟨_, _, _, _, _, _, c, d', e, h7, _⟩
    · rw [hst.1] at h3
      exact absurd h3 (by decide)
    · refine ⟨q, by rw [hst.2], d', ?_⟩
      have hlog : ((enablePort noLink 0 ⟨0x10000, 0x20000, 0x30000⟩ 0 fresh).map (fun r => (r.1.log.map (fun x => match x with | .start _ d => d | _ => 0)))) = some [0, 0, 1] := by
        decide +kernel
      rw [h] at hlog
      simp at hlog
      rw [h7] at hlog ⊢
      simp [fresh] at hlog
      rw [hlog]
      simp

/-- A controller whose port has been enabled by the firmware just before, and follows after the third read. -/
def late : World := { follow := fun t => t ≥ 12, det := fun _ => 3, sig := 0x101 }

/-- A port that has not followed yet. -/
def racing : Port := { fresh with cmd := { fresh.cmd with fre := true } }

/-- **Finding.** If reception has been enabled and the controller has not followed yet, the driver does not disable it, and the addresses change while
`FRE` is set. -/
theorem fre_race : ∃ q, enablePort late 0 ⟨0x10000, 0x20000, 0x30000⟩ 0 racing = some (q, true) ∧ ∃ c, Ev.addr c ∈ q.log ∧ c.fre = true := by
  have hlog : ((enablePort late 0 ⟨0x10000, 0x20000, 0x30000⟩ 0 racing).map (fun r => (r.2, r.1.log.map (fun x => match x with | .addr c => c.fre | _ => false)))) =
      some (true, [true, true, false]) := by decide +kernel
  cases h : enablePort late 0 ⟨0x10000, 0x20000, 0x30000⟩ 0 racing with
  | none => rw [h] at hlog; exact absurd hlog (by simp)
  | some r =>
    obtain ⟨q, d⟩ := r
    rw [h] at hlog
    simp at hlog
    obtain ⟨h1, h2⟩ := hlog
    refine ⟨q, by rw [h1], ?_⟩
    cases hl : q.log with
    | nil => rw [hl] at h2; simp at h2
    | cons x l =>
      rw [hl] at h2
      simp at h2
      cases x with
      | addr c => exact ⟨c, by simp, h2.1⟩
      | start c d => exact absurd h2.1 (by simp)

/-! ## Stop -/

/-- The ports are independent. -/
theorem disableFrom_spec {w : Nat → World} {impl : Nat → Bool} : ∀ n i ps qs, disableFrom w impl n i ps = some qs →
    ∀ j, (impl j = true → i ≤ j → j < i + n → disablePort (w j) (ps j) = some (qs j)) ∧ ((impl j = false ∨ j < i ∨ i + n ≤ j) → qs j = ps j) := by
  intro n
  induction n with
  | zero =>
    intro i ps qs h j
    simp [disableFrom] at h
    subst h
    exact ⟨fun _ h1 h2 => by omega, fun _ => rfl⟩
  | succ n ih =>
    intro i ps qs h j
    unfold disableFrom at h
    cases hi : impl i with
    | false =>
      rw [hi] at h
      obtain ⟨h1, h2⟩ := ih _ _ _ h j
      refine ⟨fun a b c => h1 a ?_ (by omega), fun hc => h2 ?_⟩
      · by_cases hij : i = j
        · subst hij; rw [hi] at a; exact absurd a (by simp)
        · omega
      · by_cases hij : j = i
        · left; rw [hij]; exact hi
        · rcases hc with hc | hc | hc
          · exact Or.inl hc
          · exact Or.inr (Or.inl (by omega))
          · exact Or.inr (Or.inr (by omega))
    | true =>
      rw [hi] at h
      simp only [if_true] at h
      cases hd : disablePort (w i) (ps i) with
      | none => rw [hd] at h; exact absurd h (by simp)
      | some p =>
        rw [hd] at h
        obtain ⟨h1, h2⟩ := ih _ _ _ h j
        by_cases hij : j = i
        · subst hij
          have := h2 (by omega)
          simp at this
          refine ⟨fun _ _ _ => by rw [this]; exact hd, fun hc => ?_⟩
          rcases hc with hc | hc | hc
          · rw [hi] at hc; exact absurd hc (by simp)
          · omega
          · omega
        · simp only [hij, if_false] at h1 h2
          refine ⟨fun a b c => h1 a (by omega) (by omega), fun hc => h2 ?_⟩
          rcases hc with hc | hc | hc
          · exact Or.inl hc
          · exact Or.inr (Or.inl (by omega))
          · exact Or.inr (Or.inr (by omega))

theorem disablePort_quiet {w : World} {p q : Port} (hs : p.cmd.fr = p.cmd.fre) (h : disablePort w p = some q) : Quiet q.cmd := by
  unfold disablePort at h
  cases hst : stop w p with
  | none => rw [hst] at h; exact absurd h (by simp)
  | some r =>
    obtain ⟨reg, p1⟩ := r
    rw [hst] at h
    simp only [Option.some.injEq] at h
    obtain ⟨s1, s2, s3, _, _, _, _, s8⟩ := stop_spec hst
    have hfre := s8 hs
    subst h
    have e : (rd w p1).cmd = p1.cmd := rd_settled ⟨by rw [s1, s2], by rw [s3, hfre]⟩
    refine ⟨?_, ?_, ?_, ?_⟩
    · show (rd w p1).cmd.st = false; rw [e]; exact s1
    · show (rd w p1).cmd.cr = false; rw [e]; exact s2
    · show (rd w p1).cmd.fre = false; rw [e]; exact hfre
    · show (rd w p1).cmd.fr = false; rw [e]; exact s3

/-- After `sata_disable` every port that is implemented is quiet, and stays so: nothing is written to memory when the operating system runs. -/
theorem disable_quiet {w : Nat → World} {impl : Nat → Bool} {ps qs : Nat → Port} (hs : ∀ i, (ps i).cmd.fr = (ps i).cmd.fre)
    (h : disable w impl ps = some qs) : ∀ i, i < 32 → impl i = true → Quiet (qs i).cmd ∧ Quiet (settle (qs i).cmd) := by
  intro i hi him
  have := (disableFrom_spec 32 0 ps qs h i).1 him (by omega) (by omega)
  have hq := disablePort_quiet (hs i) this
  exact ⟨hq, ⟨hq.st, hq.st, hq.fre, hq.fre⟩⟩

/-! ## Memory of the ports -/

/-- How the linker places the three arrays, with their alignment. -/
structure Linked (a : Areas) : Prop where
  fis : a.fis % 256 = 0
  clb : a.clb % 1024 = 0
  tbl : a.tbl % 128 = 0
  low : a.tbl + 65536 ≤ 4294967296
  fisClb : a.fis + 8192 ≤ a.clb ∨ a.clb + 32768 ≤ a.fis
  fisTbl : a.fis + 8192 ≤ a.tbl ∨ a.tbl + 65536 ≤ a.fis
  clbTbl : a.clb + 32768 ≤ a.tbl ∨ a.tbl + 65536 ≤ a.clb

/-- The memory a port writes or reads: its received FIS, its command list, its table. -/
def Uses (a : Areas) (i x : Nat) : Prop :=
  (fisOf a i ≤ x ∧ x < fisOf a i + 256) ∨ (clbOf a i ≤ x ∧ x < clbOf a i + 1024) ∨ (tblOf a i ≤ x ∧ x < tblOf a i + 256)

/-- Different ports use different memory. -/
theorem areas_apart {a : Areas} (h : Linked a) {i j x : Nat} (hi : i < 32) (hj : j < 32) (hij : i ≠ j) : ¬ (Uses a i x ∧ Uses a j x) := by
  obtain ⟨_, _, _, _, h1, h2, h3⟩ := h
  unfold Uses fisOf clbOf tblOf FIS_SIZE CLB_SIZE TBL_SIZE
  omega

/-- Addresses are aligned as the controller needs them. -/
theorem areas_aligned {a : Areas} (h : Linked a) (i : Nat) : fisOf a i % 256 = 0 ∧ clbOf a i % 1024 = 0 ∧ tblOf a i % 128 = 0 := by
  obtain ⟨h1, h2, h3, _⟩ := h
  unfold fisOf clbOf tblOf FIS_SIZE CLB_SIZE TBL_SIZE
  omega

/-- The drive of a port is placed as the theorems on commands need it. -/
theorem port_placed {a : Areas} (h : Linked a) {i : Nat} (hi : i < 32) {s : Ahci.Sys} (hc : s.clb = clbOf a i) (ht : s.ctable = tblOf a i) :
    Ahci.Placed s := by
  obtain ⟨_, h2, h3, h4, _, _, h7⟩ := h
  unfold clbOf CLB_SIZE at hc
  unfold tblOf TBL_SIZE at ht
  exact ⟨by omega, by omega, by omega⟩

/-! ## Drives -/

theorem countAfter_eq (n : Nat) : countAfter n = (n : Int) - 1 := by
  induction n with
  | zero => rfl
  | succ n ih =>
    unfold countAfter driveNew
    rw [ih]
    split <;> dsimp only <;> omega

/-- The first four disks get the numbers 0 to 3, further ones none. -/
theorem drive_numbers (n : Nat) : (driveNew (countAfter n)).2 = if n < 4 then (n : Int) else -1 := by
  unfold driveNew
  rw [countAfter_eq]
  by_cases h : n < 4
  · rw [if_pos h, if_neg (by omega)]
    dsimp only
    omega
  · rw [if_neg h, if_pos (by omega)]

/-- Up to four disks, exactly the drives that exist are accepted. -/
theorem drive_check {n : Nat} (h : n ≤ 4) (drv : Nat) : rejects drv (countAfter n) = false ↔ drv < n := by
  unfold rejects
  rw [countAfter_eq]
  simp
  omega

/-- **Finding.** With five disks the drive 4, beyond the end of `ATA_Drv`, is accepted. -/
theorem drive_four {n : Nat} (h : 5 ≤ n) : rejects 4 (countAfter n) = false := by
  unfold rejects
  rw [countAfter_eq]
  simp
  omega

/-! ## Example -/

/-- A controller that follows at every third read, and a link that comes up late. -/
def world : World := { follow := fun t => t % 3 == 0, det := fun t => if t < 4 then 1 else 3, sig := 0x101 }

/-- The port is set up and a disk is found. -/
example : ∃ q, enablePort world 0xFFFFFFFF ⟨0x10000, 0x20000, 0x30000⟩ 5 fresh = some (q, true) ∧ q.clb = 0x21400 := by
  have e : ((enablePort world 0xFFFFFFFF ⟨0x10000, 0x20000, 0x30000⟩ 5 fresh).map (fun r => (r.2, r.1.clb))) = some (true, 0x21400) := by decide +kernel
  cases h : enablePort world 0xFFFFFFFF ⟨0x10000, 0x20000, 0x30000⟩ 5 fresh with
  | none => rw [h] at e; exact absurd e (by simp)
  | some r =>
    rw [h] at e
    simp at e
    exact ⟨r.1, by rw [← e.1], e.2⟩

example : Linked ⟨0x10000, 0x20000, 0x30000⟩ := by constructor <;> decide

/-- Ports that run are stopped. -/
example : ((disable (fun _ => world) (fun i => i == 3) (fun _ => { fresh with cmd := { fresh.cmd with st := true, cr := true, fre := true, fr := true } })).map
    (fun qs => ((qs 3).cmd.st, (qs 3).cmd.fr, (qs 2).cmd.st))) = some (false, false, true) := by decide +kernel

end AhciPort

end Verif
