import Verif.Timers
/-!
# `Hd44780Driver` (`hwtLib/peripheral/displays/hd44780/driver.py`) and the LCD agent (`.../hd44780/intf.py`)

* `LCD_ROWS = 2`, `LCD_DATA_WIDTH = 8`: other values can not be elaborated (driver.py:110-112 raises for 1 row,
  `CMD_FUNCTION_SET` intf.py:117 asserts at most 2, `init_seq.DATA` does not fit into 4 bits).
* `rw` is constant 0.
* A value which is not assigned (`None`) on the pins is `none`; on `long_wait` it is the arbitrary input `x`.
* `din.rd` and `dout.vld` are not assigned in the state `clean_line` (driver.py:164-170), the result is a latch: the value of the
  previous clock cycle is kept (`lrd`, `lvld`).
-/
namespace Verif.Hd44780

/-- `C` is `LCD_COLS`, `P` is `LCD_CLK_PER` (driver.py:240-241) -/
structure Cfg where
  C : Nat
  P : Nat

/-- A command of `HwIOHd44780Cmd` (driver.py:23-37) -/
structure Cmd where
  /-- `RS_DATA` -/
  rs : Bool
  long : Bool
  d : Nat
deriving DecidableEq, Inhabited

/-- driver.py:116-121 -/
inductive Nl | rowIncr | jmp | clean | jmpStart
deriving DecidableEq

/-- driver.py:194-198 -/
inductive Fsm | powerup | idle | write
deriving DecidableEq

structure St where
  row : Bool
  nl : Nl
  lrd : Bool
  lvld : Bool
  col : Nat
  /-- `init_seq.wordIndex` -/
  idx : Nat
  fsm : Fsm
  isLong : Bool
  /-- `en_in_first_half_period` -/
  enF : Bool
  /-- `en_delay` -/
  en : Bool
  /-- counters of the timer `lcd_clk_en` -/
  c1 : Nat → Nat
  /-- counters of the timers of a command -/
  c2 : Nat → Nat

structure In where
  /-- `dataIn` (the character if valid) -/
  din : Option Nat
  /-- value of an undefined `long_wait` -/
  x : Bool
deriving DecidableEq

structure Out where
  rd : Bool
  en : Bool
  /-- `rs`, `d` (`none` if undefined) -/
  pins : Option (Bool × Nat)
deriving DecidableEq

/-! ## Commands -/

/-- `'\n'` -/
def LF : Nat := 10
/-- `'\f'` -/
def FF : Nat := 12
/-- driver.py:104-108, intf.py:122-125 (`COLS < 128`) -/
def addr (C : Nat) (row : Bool) : Cmd := ⟨false, false, 128 + if row then C else 0⟩
/-- driver.py:169-171 -/
def space : Cmd := ⟨true, false, 32⟩
/-- driver.py:178-180 -/
def clear : Cmd := ⟨false, true, 1⟩
/-- driver.py:183-185 -/
def char (c : Nat) : Cmd := ⟨true, false, c⟩
/-- driver.py:263-276: `CMD_FUNCTION_SET(1, 1, 0)`, `CMD_DISPLAY_CONTROL(1, 0, 0)`, `CMD_ENTRY_MODE_SET(1, 1)` -/
def initSeq : List Cmd := [⟨false, false, 0b00111000⟩, ⟨false, false, 0b00001100⟩, ⟨false, false, 0b00000111⟩]

/-! ## Timers (driver.py:240-256) -/

def lcdEn (g : Cfg) (s : St) : Bool :=
  ((Timers.machine [g.P]).out s.c1 ⟨true, false⟩).getD 0 false
/-- `DELAY_CMD // 2`, `DELAY_CMD`, `DELAY_RETURN_HOME` (intf.py:27-29) -/
def periods : List Nat := [5, 10, 410]
/-- driver.py:206 -/
def timIn (g : Cfg) (s : St) : Timers.In := ⟨lcdEn g s, s.fsm == .idle⟩
def tick (g : Cfg) (s : St) (t : Nat) : Bool := ((Timers.machine periods).out s.c2 (timIn g s)).getD t false

/-- driver.py:201-204, 208-209 -/
def done (g : Cfg) (s : St) : Bool := if s.isLong then tick g s 2 else tick g s 1
/-- `data_in_tmp.rd` -/
def tmpRd (g : Cfg) (s : St) : Bool := s.fsm == .write && done g s

/-! ## Translation (driver.py:94-190) -/

def initVld (s : St) : Bool := decide (s.idx < initSeq.length)
/-- `dout.rd` behind the prioritized join (joinPrioritized.py:60-62) -/
def trRd (g : Cfg) (s : St) : Bool := tmpRd g s && !initVld s

structure Tr where
  vld : Bool
  rd : Bool
  cmd : Option Cmd

def translate (g : Cfg) (s : St) (x : In) : Tr :=
  match x.din with
  | none => ⟨false, trRd g s, none⟩
  | some c =>
    if c = LF then
      match s.nl with
      | .rowIncr => ⟨false, false, none⟩
      | .jmp => ⟨true, false, some (addr g.C s.row)⟩
      | .clean => ⟨s.lvld, s.lrd, some space⟩
      | .jmpStart => ⟨true, trRd g s, some (addr g.C s.row)⟩
    else if c = FF then ⟨true, trRd g s, some clear⟩
    else ⟨true, trRd g s, some (char c)⟩

/-- `data_in_tmp` (driver.py:281) -/
def tmpVld (g : Cfg) (s : St) (x : In) : Bool := initVld s || (translate g s x).vld
def tmpCmd (g : Cfg) (s : St) (x : In) : Option Cmd :=
  if initVld s then initSeq[s.idx]? else if (translate g s x).vld then (translate g s x).cmd else none

def out (g : Cfg) (s : St) (x : In) : Out :=
  ⟨(translate g s x).rd, s.en, (tmpCmd g s x).map fun c => (c.rs, c.d)⟩

/-! ## Registers -/

/-- driver.py:122-131 -/
def nextNl (g : Cfg) (s : St) (x : In) : Nl :=
  match s.nl with
  | .rowIncr => if x.din = some LF then .jmp else .rowIncr
  | .jmp => if trRd g s then .clean else .jmp
  | .clean => if trRd g s && s.col == g.C - 1 then .jmpStart else .clean
  | .jmpStart => if trRd g s then .rowIncr else .jmpStart

/-- driver.py:114, 156-168 -/
def nextCol (g : Cfg) (s : St) (x : In) : Nat :=
  if x.din = some LF then
    match s.nl with
    | .jmp => 0
    | .clean => if trRd g s then (s.col + 1) % 2 ^ log2ceil (g.C - 1) else s.col
    | _ => s.col
  else s.col

/-- driver.py:199-205 -/
def nextFsm (g : Cfg) (s : St) (x : In) : Fsm :=
  match s.fsm with
  | .powerup => if tick g s 2 then .idle else .powerup
  | .idle => if tmpVld g s x then .write else .idle
  | .write => if done g s then .idle else .write

def next (g : Cfg) (s : St) (x : In) : St where
  row := if x.din = some LF ∧ s.nl = .rowIncr then !s.row else s.row
  nl := nextNl g s x
  lrd := (translate g s x).rd
  lvld := (translate g s x).vld
  col := nextCol g s x
  idx := if tmpRd g s && initVld s then s.idx + 1 else s.idx
  fsm := nextFsm g s x
  isLong := if s.fsm = .idle then ((tmpCmd g s x).map Cmd.long).getD x.x else s.isLong
  enF := if s.fsm = .idle then true else if s.enF && tick g s 0 then false else s.enF
  en := if lcdEn g s then s.fsm != .idle && s.enF else s.en
  c1 := (Timers.machine [g.P]).next s.c1 ⟨true, false⟩
  c2 := (Timers.machine periods).next s.c2 (timIn g s)

def machine (g : Cfg) : Machine St In Out := ⟨out g, next g⟩

/-- State after reset; the latches have no reset value. -/
structure IsInit (g : Cfg) (s : St) : Prop where
  row : s.row = false
  nl : s.nl = .rowIncr
  col : s.col = 0
  idx : s.idx = 0
  fsm : s.fsm = .powerup
  enF : s.enF = true
  en : s.en = false
  c1 : s.c1 = Timers.init [g.P]
  c2 : s.c2 = Timers.init periods

/-! ## Observations -/

abbrev Run := List (In × Out)

/-- Accepted characters. -/
def chars (tr : Run) : List Nat := tr.filterMap fun e => if e.2.rd then e.1.din else none
/-- The character which is offered and not accepted in the last cycle. -/
def pending (tr : Run) : Option Nat := tr.getLast?.bind fun e => if e.2.rd then none else e.1.din
def lastEn (tr : Run) : Bool := (tr.getLast?.map fun e => e.2.en).getD false
/-- Pins on the rising edges of `en` (intf.py:172-178), the first argument is the value before. -/
def strobesFrom : Bool → Run → List (Option (Bool × Nat))
  | _, [] => []
  | p, e :: tr => (if e.2.en && !p then [e.2.pins] else []) ++ strobesFrom e.2.en tr
def strobes (tr : Run) : List (Option (Bool × Nat)) := strobesFrom false tr

/-- The producer keeps a character valid until it is accepted. -/
def Holds (tr : Run) : Prop :=
  ∀ pre e e' post, tr = pre ++ e :: e' :: post → e.2.rd = false → e.1.din.isSome = true → e'.1.din = e.1.din

/-! ## LCD agent (intf.py:143-253) -/

structure Lcd where
  scr : Nat → Nat → Nat
  r : Nat
  c : Nat

/-- intf.py:150-156 -/
def lcd0 : Lcd := ⟨fun _ _ => 32, 0, 0⟩

/-- intf.py:172-253 for the commands which are not ignored; `self.shift` is 1 (`CMD_ENTRY_MODE_SET(1, 1)`). `none` is an error
(`NotImplementedError`, `AssertionError`, `IndexError`, undefined pins). -/
def Lcd.step (C : Nat) (l : Lcd) : Option (Bool × Nat) → Option Lcd
  | none => none
  | some (true, d) => if l.r < 2 ∧ l.c < C then some { l with scr := upd l.scr l.r (upd (l.scr l.r) l.c d), c := l.c + 1 } else none
  | some (false, d) =>
    if 128 ≤ d then
      if (d - 128 + C - 1) / C < 2 then some { l with r := (d - 128 + C - 1) / C, c := (d - 128) % 2 } else none
    else if 64 ≤ d then none
    else if 32 ≤ d then some l
    else if 16 ≤ d then none
    else if 4 ≤ d then some l
    else if d = 1 then some ⟨fun _ _ => 32, 0, 0⟩
    else none

def Lcd.run (C : Nat) : Option Lcd → List (Option (Bool × Nat)) → Option Lcd
  | l, [] => l
  | l, p :: ps => Lcd.run C (l.bind fun l => l.step C p) ps

end Verif.Hd44780
