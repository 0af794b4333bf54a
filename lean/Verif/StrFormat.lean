import Verif.BcdProps

/-!
# `Axi4S_strFormat` (`hwtLib/amba/axis_comp/strformat.py`) and `_parse_format_groups` (`strformat_fn.py`)

`DATA_WIDTH = 8`. A format is the list of its items after the empty strings were removed (line 121). The members of
`data_in` are numbered: a member is a number (value and width) or an 8 bit AXI-stream. Strings are lists of their encoded bytes.
`isdigit` is that of ASCII. The assignments to `bin_to_bcd.dout.rd` (line 253) of several decimal items would be in conflict, here `rd` is that of the
selected item. `fitTo(.., shrink=False)` raises if the value is too wide, this is a hypothesis of the properties (`Wf`).
-/

namespace Verif.StrFormat

open Verif

/-- number formats -/
inductive Ty
  | X | b | d | o | x
deriving DecidableEq

inductive Item
  | str (s : List Nat)
  | num (t : Ty) (digits arg : Nat)
  | stream (arg : Nat)
deriving DecidableEq

/-- `BITS_PER_CHAR`, strformat.py:50-56 -/
def bitsPer : Ty → Nat
  | .b => 1
  | .o => 3
  | .d => 4
  | .x => 4
  | .X => 4

/-- strformat.py:149-159, encoded -/
def table : Ty → List Nat
  | .d => [48, 49, 50, 51, 52, 53, 54, 55, 56, 57]
  | .b => [48, 49]
  | .o => [48, 49, 50, 51, 52, 53, 54, 55]
  | .x => [48, 49, 50, 51, 52, 53, 54, 55, 56, 57, 97, 98, 99, 100, 101, 102]
  | .X => [48, 49, 50, 51, 52, 53, 54, 55, 56, 57, 65, 66, 67, 68, 69, 70]

/-- `build_string_rom`, strformat.py:127-168: `max_chars_per_format`; the second item of the same type (other than `d`) is skipped
before its number of digits is used (line 150-151) -/
def maxCharsFrom : List Ty → List Item → Nat
  | _, [] => 0
  | seen, .str s :: F => max s.length (maxCharsFrom seen F)
  | seen, .num t n _ :: F =>
    if t = .d then max n (maxCharsFrom seen F)
    else if t ∈ seen then maxCharsFrom seen F
    else max n (maxCharsFrom (t :: seen) F)
  | seen, .stream _ :: F => maxCharsFrom seen F
def maxChars (F : List Item) : Nat := maxCharsFrom [] F

/-- `max_bcd_digits` -/
def maxBcd : List Item → Nat
  | [] => 0
  | .num .d n _ :: F => max n (maxBcd F)
  | _ :: F => maxBcd F

def hasTy (F : List Item) (t : Ty) : Bool := F.any fun i => match i with | .num u _ _ => decide (u = t) | _ => false

/-- string part of the memory, strformat.py:175-178 -/
def strBytes : Item → List Nat
  | .str s => s
  | _ => []
/-- sorted by the character -/
def tyOrder : List Ty := [.X, .b, .d, .o, .x]
def tables (F : List Item) (ts : List Ty) : List Nat := (ts.filter (hasTy F)).flatMap table
/-- `_string_rom`, strformat.py:170-184 -/
def rom (F : List Item) : List Nat := F.flatMap strBytes ++ tables F tyOrder
/-- `strings_offset_and_size` -/
def strOff (F : List Item) (m : Nat) : Nat := ((F.take m).flatMap strBytes).length
def tabOff (F : List Item) (t : Ty) : Nat :=
  (F.flatMap strBytes).length + (tables F (tyOrder.takeWhile (· ≠ t))).length

/-- `string_rom[offset + index]`, the index has `log2ceil` of the size bits -/
def romRead (F : List Item) (off i : Nat) : Option Nat := (rom F)[(off + i) % 2 ^ log2ceil (rom F).length]?

/-- `create_char_mux`, strformat.py:188-211; `w` is the width of the input -/
def digitMux (w b digits x c : Nat) : Option Nat :=
  if c < digits then
    let i := digits - 1 - c
    some (if i * b < w then x / 2 ^ (i * b) % 2 ^ (min ((i + 1) * b) w - i * b) else 0)
  else none

structure St where
  main : Nat
  ch : Nat
  bcd : Bcd.B

structure In where
  ready : Bool
  arg : Nat → Nat
  sv : Nat → Bool
  sd : Nat → Nat
  sl : Nat → Bool

structure Cfg where
  F : List Item
  /-- widths of numeric members -/
  aw : Nat → Nat

/-- width of `char_i`, strformat.py:306 -/
def cw (c : Cfg) : Nat := log2ceil (maxChars c.F)
/-- `bin_to_bcd.INPUT_WIDTH`, strformat.py:300; `DECIMAL_DIGITS` -/
def bcdW (c : Cfg) : Nat := log2ceil (10 ^ maxBcd c.F - 1)
def bcdD (c : Cfg) : Nat := Bcd.decDigits (bcdW c)

def item (c : Cfg) (s : St) : Option Item := c.F[s.main]?

/-- strformat.py:232, 252, 277 -/
def inVld (c : Cfg) (s : St) (x : In) : Bool :=
  match item c s with
  | some (.str _) => true
  | some (.num .d _ _) => s.bcd.st == .fin
  | some (.num _ _ _) => true
  | some (.stream i) => x.sv i
  | none => false

/-- strformat.py:282-286 -/
def inLast (c : Cfg) (s : St) (x : In) : Bool :=
  match item c s with
  | some (.str l) => s.ch == l.length - 1
  | some (.num _ n _) => s.ch == n - 1
  | some (.stream i) => x.sl i
  | none => false

/-- strformat.py:241, 261-266, 279-281 -/
def data (c : Cfg) (s : St) (x : In) : Option Nat :=
  match item c s with
  | some (.str _) => romRead c.F (strOff c.F s.main) s.ch
  | some (.num .d n _) =>
    (digitMux (4 * bcdD c) 4 n (Bcd.bout (bcdD c) s.bcd).data s.ch).bind (romRead c.F (tabOff c.F .d))
  | some (.num t n i) => (digitMux (c.aw i) (bitsPer t) n (x.arg i) s.ch).bind (romRead c.F (tabOff c.F t))
  | some (.stream i) => some (x.sd i)
  | none => none

structure Out where
  valid : Bool
  data : Option Nat
  last : Bool
  srd : Nat → Bool

/-- strformat.py:236-288 and 311-346 -/
def out (c : Cfg) (s : St) (x : In) : Out where
  valid := inVld c s x
  data := data c s x
  last := s.main == c.F.length - 1 && inLast c s x
  srd := fun i => x.ready && (item c s == some (.stream i))

/-- strformat.py:253 and 355-364 -/
def bcdIn (c : Cfg) (s : St) (x : In) : Bcd.BIn :=
  match item c s with
  | some (.num .d n i) => ⟨s.ch == 0, x.arg i, x.ready && s.ch == n - 1⟩
  | _ => ⟨false, 0, false⟩

/-- strformat.py:331-353 -/
def next (c : Cfg) (s : St) (x : In) : St where
  main := if x.ready && inVld c s x && inLast c s x then (if s.main == c.F.length - 1 then 0 else s.main + 1) else s.main
  ch := if x.ready && inVld c s x then (if inLast c s x then 0 else (s.ch + 1) % 2 ^ cw c) else s.ch
  bcd := Bcd.bnext (bcdW c) s.bcd (bcdIn c s x)

def init (b0 : Nat) : St := ⟨0, 0, Bcd.binit b0⟩

/-! ## `_parse_format_groups`, strformat_fn.py:13-80 -/

/-- tokens of `re.split(r"([\{\}])", f_str)`: texts (possibly empty) separated by braces -/
inductive Tok
  | txt (s : List Char)
  | lb
  | rb
deriving DecidableEq

def tokenize : List Char → List Char → List Tok
  | acc, [] => [.txt acc.reverse]
  | acc, c :: cs =>
    if c = '{' then .txt acc.reverse :: .lb :: tokenize [] cs
    else if c = '}' then .txt acc.reverse :: .rb :: tokenize [] cs
    else tokenize (c :: acc) cs

/-- a parsed group -/
structure Group where
  name : List Char
  digits : Option Nat
  ty : Char
deriving DecidableEq

inductive Piece
  | lit (s : List Char)
  | grp (g : Group)
deriving DecidableEq

/-- exceptions -/
inductive Err
  | missing | closing | nested | empty | body
deriving DecidableEq

def toNat (cs : List Char) : Nat := cs.foldl (fun n c => n * 10 + (c.toNat - 48)) 0

/-- index of the first character which is not a digit, or of the last character (strformat_fn.py:57-59) -/
def typeIdx (f : List Char) : Nat := match f.findIdx? (fun c => !c.isDigit) with | some i => i | none => f.length - 1

/-- `current_group_body.split(":")` -/
def splitColon : List Char → List (List Char)
  | [] => [[]]
  | c :: cs =>
    if c = ':' then [] :: splitColon cs
    else match splitColon cs with
      | h :: t => (c :: h) :: t
      | [] => [[c]]

/-- strformat_fn.py:49-71 and the assertion of `Axi4S_strFormatItem` -/
def parseBody (body : List Char) : Except Err Group :=
  match splitColon body with
  | [name, f] =>
    let i := typeIdx f
    match f.drop i with
    | [t] => if t ∈ ['d', 'b', 'o', 'x', 'X', 's'] then .ok ⟨name, if i > 0 then some (toNat (f.take i)) else none, t⟩ else .error .body
    | _ => .error .body
  | _ => .error .body

/-- `group_start`/`current_group_body` -/
inductive PSt
  | out
  | grp (body : Option (List Char))

def parseToks : PSt → List Tok → Except Err (List Piece)
  | .out, [] => .ok []
  | .grp _, [] => .error .missing
  | .out, .lb :: ts =>
    match ts with
    | .lb :: ts' => (parseToks .out ts').map (.lit ['{'] :: ·)
    | [] => .error .missing
    | t :: ts' => parseToks (.grp none) (t :: ts')
  | .out, .rb :: ts =>
    match ts with
    | .rb :: ts' => (parseToks .out ts').map (.lit ['}'] :: ·)
    | _ => .error .closing
  | .out, .txt s :: ts => (parseToks .out ts).map (.lit s :: ·)
  | .grp _, .lb :: _ => .error .nested
  | .grp b, .rb :: ts =>
    match b with
    | none => .error .empty
    | some [] => .error .empty
    | some (c :: cs) => match parseBody (c :: cs) with
      | .ok g => (parseToks .out ts).map (.grp g :: ·)
      | .error e => .error e
  | .grp b, .txt s :: ts =>
    match b with
    | some (_ :: _) => .error .body
    | _ => parseToks (.grp (some s)) ts

def parse (s : List Char) : Except Err (List Piece) := parseToks .out (tokenize [] s)

end Verif.StrFormat
