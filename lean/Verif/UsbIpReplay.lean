import Verif.UsbIpRec
/-!
# Record and replay of a USB/IP session, peripheral/usb/sim/usbip/session_recorder.py

`Proc` is what `USBIPConnection` does with its reader and writer: a tree of `readexactly` and `write`; `stop` is an exception in the
handler of a packet (sim/usbip/connection.py:318-373).  `record` is a session with the recorder, `replay` a session of
`UsbipServerReplayer` on a recording.

Simplifications: the tree is finite for every input; the time is only written to the recording (`Reader.readexactly` and
`Writer.write` of the replayer wait for it, which does not change the order); closing of devices is not modelled.
-/
namespace Verif.UsbIpReplay
open Verif.UsbIpRec

inductive Proc where
  | read (n : Nat) (k : List Nat → Proc)
  | write (d : List Nat) (p : Proc)
  | stop

/-- A session with a client which sends `input` and then ends, with the recorder (session_recorder.py:25-46). `IncompleteReadError` ends the
session, nothing is recorded for it (connection.py:322-325, :385-390). `now i` is the time of the item `i`. -/
def record (now : Nat → Int) : Nat → Proc → List Nat → List Item
  | i, .read n k, input =>
    if n ≤ input.length then ⟨now i, true, input.take n⟩ :: record now (i + 1) (k (input.take n)) (input.drop n) else []
  | i, .write d p, input => ⟨now i, false, d⟩ :: record now (i + 1) p input
  | _, .stop, _ => []

/-- End of `connection()` after an exception, connection.py:385-400: `writer.close()` asserts that nothing is left in the recording
(session_recorder.py:108-109), the exception is raised again if `_die_on_exception` (= debug). `true` is no exception. -/
def finish (debug : Bool) (rest : List Item) : Bool := rest.isEmpty && !debug

/-- A session of the replayer, session_recorder.py:71-109: `popleft` (`IndexError` at the end), assertion of the direction, assertion of
the size (read) or of the data (write). All of these exceptions are caught in `connection()`. -/
def replay (debug : Bool) : Proc → List Item → Bool
  | .read _ _, [] => finish debug []
  | .read n k, x :: l => if x.read = true ∧ x.d.length = n then replay debug (k x.d) l else finish debug l
  | .write _ _, [] => finish debug []
  | .write d p, x :: l => if x.read = false ∧ x.d = d then replay debug p l else finish debug l
  | .stop, l => finish debug l

end Verif.UsbIpReplay
