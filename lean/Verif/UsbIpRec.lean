import Verif.UsbIp
/-!
# Recordings of USB/IP sessions, peripheral/usb/sim/usbip/session_recorder.py

An item of a recording is `(time, 'r' | 'w', bytes)`.  `filterEmptyIn` is `filter_empty_in`; `none` is an `AssertionError`.
`cutOff` is `cut_off_empty_time_segments`; `none` is the `StopIteration` of `next` on an empty list of segments.

Simplifications: the original collects indexes and removes them at the end, `filterEmptyIn` drops the items of a finished
removal at once and keeps those of an unfinished one (`StopIteration` ends the loop before `to_delete.extend`); times are
integers; `inf` after the last segment is the empty rest of the list.
-/
namespace Verif.UsbIpRec
open Verif.UsbIp

structure Item where
  t : Int
  /-- 'r', else 'w' -/
  read : Bool
  d : List Nat
deriving DecidableEq, Repr

/-- number of `n` bytes at offset `o`, a field of `struct.unpack(">...")` -/
def fld (o n : Nat) (d : List Nat) : Nat := unbe ((d.drop o).take n)

/-- `filter_empty_in`, session_recorder.py:165-234 -/
def filterEmptyIn (rm : Nat → Bool) : List Item → Option (List Item)
  | [] => some []
  | a :: r =>
    if a.read = true ∧ a.d.length = 2 ∧ fld 0 2 a.d = 0 then
      match r with
      | [] => some [a]
      | b :: r2 =>
        if b.d.length = 18 then
          if fld 0 2 b.d = 1 ∧ rm (fld 2 4 b.d) = true then
            match r2 with
            | [] => some [a, b]
            | c :: r3 =>
              if c.d.length ≠ 28 then none
              else if fld 10 4 b.d = 0 ∧ fld 4 4 c.d ≠ 0 then
                match r3 with
                | [] => some [a, b, c]
                | p :: r4 =>
                  if p.d.length ≠ fld 4 4 c.d then none
                  else
                    match r4 with
                    | [] => some [a, b, c, p]
                    | w :: r5 => if w.read then none else filterEmptyIn rm r5
              else
                match r3 with
                | [] => some [a, b, c]
                | w :: r4 => if w.read then none else filterEmptyIn rm r4
          else if fld 0 2 b.d = 1 ∧ fld 14 4 b.d ≠ 0 ∧ fld 10 4 b.d = 1 then
            match r2 with
            | [] => some [a, b]
            | c :: r3 =>
              if c.d.length ≠ 28 then none
              else
                match r3 with
                | [] => some [a, b, c]
                | w :: r4 =>
                  if w.read then none
                  else if w.d = retSubmit (fld 2 4 b.d) (fld 6 4 b.d) (fld 10 4 b.d) (fld 14 4 b.d) 0 0 [] then
                    filterEmptyIn rm r4
                  else (filterEmptyIn rm r4).map fun x => a :: b :: c :: w :: x
          else (filterEmptyIn rm r2).map fun x => a :: b :: x
        else (filterEmptyIn rm r2).map fun x => a :: b :: x
    else (filterEmptyIn rm r).map fun x => a :: x

/-- `while t >= next_interval[1]`, session_recorder.py:152-158 -/
def skipSegs (t : Int) : List (Int × Int) → Int → List (Int × Int) × Int
  | [], off => ([], off)
  | s :: r, off => if t ≥ s.2 then skipSegs t r (off - (s.2 - s.1)) else (s :: r, off)

/-- the loop, session_recorder.py:151-160 -/
def cutGo : List Item → List (Int × Int) → Int → List Item
  | [], _, _ => []
  | x :: r, segs, off =>
    { x with t := x.t + (skipSegs x.t segs off).2 } :: cutGo r (skipSegs x.t segs off).1 (skipSegs x.t segs off).2

/-- `cut_off_empty_time_segments`, session_recorder.py:136-162 -/
def cutOff (data : List Item) (segs : List (Int × Int)) : Option (List Item) :=
  match segs with
  | [] => none
  | _ :: _ => some (cutGo data segs 0)

end Verif.UsbIpRec
