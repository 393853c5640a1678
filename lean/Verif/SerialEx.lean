import Verif.SerialFaultThms
import Verif.Demo

/-!
# Update over the serial line: examples (C77)
-/

namespace Verif.SerialUpdate.Ex

open Verif

/-- 3 sectors of 256 bytes, 16 byte header. -/
def cfg : Cfg := { ss := 256, n := 3, h := 16, fb := 8 }

theorem wf : cfg.WF := by constructor <;> decide

/-- The new image of `Demo` as a file of 60 bytes. -/
def file : Bytes := (List.range 60).map Demo.new

/-- The old image is running. -/
def flash : Flash
  | .boot => Demo.old
  | _ => fun _ => 0xFF#8

theorem good_old : GoodImage cfg (Demo.env 0#8) Demo.old :=
  have g := Demo.good_old 0#8
  ⟨g.magic, g.nonempty, by decide, g.type, g.digest, g.signature, g.loc⟩

theorem good_new : GoodImage cfg (Demo.env 0#8) Demo.new :=
  have g := Demo.good_new 0#8
  ⟨g.magic, g.nonempty, by decide, g.type, g.digest, g.signature, g.loc⟩

/-- The file is transferred to version 7, by evaluation. -/
theorem run_ok : (exchange cfg 12 { file := file } (devStart cfg 7 flash).1 (devStart cfg 7 flash).2).1.ph = .ended ∧
    (exchange cfg 12 { file := file } (devStart cfg 7 flash).1 (devStart cfg 7 flash).2).2.st = .done ∧
    (List.range 60).all (fun x => (exchange cfg 12 { file := file } (devStart cfg 7 flash).1 (devStart cfg 7 flash).2).2.fl .update x == Demo.new x) := by
  decide +kernel

example : (exchange cfg 12 { file := file } (devStart cfg 7 flash).1 (devStart cfg 7 flash).2).1.ph = .ended ∧
    Received cfg file flash (exchange cfg 12 { file := file } (devStart cfg 7 flash).1 (devStart cfg 7 flash).2).2 :=
  transfer_completes_partial wf (by decide) (by decide) (by decide) (by decide) (by decide) (by decide) flash (by decide)

/-- And installed at the next start. -/
example : ∃ w', bootUp cfg (Demo.env 0#8) (exchange cfg 12 { file := file } (devStart cfg 7 flash).1 (devStart cfg 7 flash).2).2.fl = .ok () w' ∧
    w'.locked = true ∧ Updated cfg Demo.new Demo.old w'.fl ∧ bootable cfg (Demo.env 0#8) (w'.fl .boot) :=
  transfer_then_update_partial wf (by decide) good_old good_new (by decide)
    (file := file) ⟨by decide, by decide⟩ (by decide) (by decide) (by decide) (version := 7) (by decide) (by decide) (f := flash)
    (fun _ _ => rfl) (by decide) (k := 12) (by decide) rfl (by decide +kernel) .none

/-- `device_any_order`: packets in order, one of them damaged at first, another repeated. -/
def file16 : Bytes := file.take 16

/-- A damaged packet. -/
def damaged : Bytes := (packet 0 (chunk file16 0)).set 9 0#8

example : damaged.length = 16 ∧ checked damaged = false ∧ damaged.take 2 = [0xA5#8, 0x5A#8] := by decide +kernel

example : Received cfg file16 flash (recvAll cfg { fl := flash, locked := false } ([0xA5#8, 0x5A#8] ++ le4 file16.length ++
    [damaged, packet 0 (chunk file16 0), packet 0 (chunk file16 0), packet 8 (chunk file16 8)].flatten)).1 :=
  (device_any_order wf (by decide) (by decide) (by decide) (by decide) (by decide) flash
    [damaged, packet 0 (chunk file16 0), packet 0 (chunk file16 0), packet 8 (chunk file16 8)] (by
      intro p hp
      simp only [List.mem_cons, List.not_mem_nil, or_false] at hp
      rcases hp with rfl | rfl | rfl | rfl
      · exact .bad _ rfl rfl (by decide +kernel)
      · exact .good 0 rfl (by decide)
      · exact .good 0 rfl (by decide)
      · exact .good 8 rfl (by decide))).2
    (by
      show List.Sublist [packet 0 (chunk file16 0), packet 8 (chunk file16 8)] _
      exact .cons _ (.cons_cons _ (.cons _ (.cons_cons _ .slnil))))

example : (recvAll cfg { fl := flash, locked := true } [1#8, 0xA5#8, 0x5A#8, 0xFF#8, 0xFF#8]).1.st ≠ .ub :=
  (any_input_safe wf (by decide) flash true _).1

example : checked ((packet 8 [1#8, 2#8]).set 8 7#8) = false :=
  one_byte_error_detected (by decide) (by decide) (by decide) (by decide)

/-- The other way round: the last byte of three is not covered. -/
example : checked ((packet 8 [1#8, 2#8, 3#8]).set 10 7#8) = true := by decide +kernel

/-- Version 8: everybody reports success, nothing is written. -/
example : (exchange cfg 12 { file := file } (devStart cfg 8 flash).1 (devStart cfg 8 flash).2).1.ph = .ended ∧
    (exchange cfg 12 { file := file } (devStart cfg 8 flash).1 (devStart cfg 8 flash).2).2.st = .done ∧
    getState cfg (exchange cfg 12 { file := file } (devStart cfg 8 flash).1 (devStart cfg 8 flash).2).2.fl .update = some ST_UPDATING ∧
    ∀ x, x < cfg.last → (exchange cfg 12 { file := file } (devStart cfg 8 flash).1 (devStart cfg 8 flash).2).2.fl .update x = 0xFF#8 :=
  even_version_reports_success wf (by decide) (by decide) (by decide) (by decide) (by decide)
    (.inr (fun x h1 h2 => by
      show Demo.old x = 0xFF#8
      have h1' : 764 ≤ x := h1
      obtain ⟨k, rfl⟩ : ∃ k, x = k + 764 := ⟨x - 764, by omega⟩
      show (if k + 764 < 16 + 14 then 0xA1#8 else 0xFF#8) = 0xFF#8
      rw [if_neg (by omega)])) (by decide)

/-- Version 35: the transfer does not get on. -/
example : exchange cfg 3 { file := file } (devStart cfg 35 flash).1 (devStart cfg 35 flash).2 =
    (misled file, { fl := flash, locked := false, tot := file.length }) :=
  (hash_version_stuck (by decide) (by decide) (by decide) flash (by decide)).1

/-- One additional byte, and the first packet a hundred times. -/
example : recvAll cfg { fl := flash, locked := false, tot := 60 } (1#8 :: (List.replicate 100
      (0xA5#8 :: 0x5A#8 :: ((packet 0 (chunk file 0)).drop 2).take 13 ++ [0xB2#8])).flatten) =
    ({ fl := flash, locked := false, tot := 60, msg := [0xB2#8] }, []) :=
  desync_forever cfg rfl rfl (by
    show NoHeader [_, _, _, _, _, _, _, _, _, _, _, _, _, _]
    simp only [NoHeader]
    decide +kernel) 100

example : (recvAll cfg { fl := flash, locked := false } [0x5A#8, 60#8, 0#8, 0#8, 0#8]).2 = [] :=
  (lost_size_no_answer cfg _ rfl rfl (by decide)).1

example : alarm (srvAll { file := file } [START, 0#8, 7#8]).1 = [] :=
  (size_not_repeated rfl (by decide) rfl rfl (by decide)).2.2

/-- A file of the size of the partition. -/
example : (exchange cfg 9 { file := List.replicate 768 0#8 } { fl := flash, locked := false } [START, 0#8, 0#8, 0#8, 7#8]).1.ph = .send :=
  (too_large_stuck (by rw [List.length_replicate]; decide) (by rw [List.length_replicate]; decide) (by rw [List.length_replicate]; decide)
    (by decide) (by decide)).1

end Verif.SerialUpdate.Ex
