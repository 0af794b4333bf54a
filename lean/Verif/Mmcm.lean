import Verif.Common
/-!
# Checks of parameters of MMCME2_ADV (hwtLib/xilinx/primitive/mmcme2.py)

Numbers are integers in thousandths (multipliers and dividers which may have a fraction, phases, duty cycles, jitters; periods in
fs), rounding of floats is not modelled. Types of the boolean and bit parameters are not modelled.
-/
namespace Verif.Mmcm

structure Out where
  divide : Int
  phase : Int
  duty : Int
  deriving DecidableEq, Repr

structure Cfg where
  bandwidth : String
  compensation : String
  ssMode : String
  ssModPeriod : Int
  /-- CLKFBOUT_MULT_F, CLKFBOUT_PHASE -/
  mult : Int
  fbPhase : Int
  /-- DIVCLK_DIVIDE, a whole number -/
  divclk : Int
  period1 : Int
  period2 : Int
  jitter1 : Int
  jitter2 : Int
  /-- CLKOUT0, the divider in thousandths -/
  out0 : Out
  /-- CLKOUT1 to CLKOUT6, dividers are whole numbers -/
  outs : List Out
  deriving DecidableEq, Repr

/-- mmcme2.py:106-110 -/
def rangeChk (v lo hi : Int) : Bool := !(decide (v < lo) || decide (v > hi))

/-- mmcme2.py:83-104; the divider and the duty cycle in thousandths, both sides multiplied by the divider -/
def dutyChk (d u : Int) : Bool :=
  if d > 64000 then
    -- CLK_DUTY_CYCLE_MIN = (d - 64) / d, CLK_DUTY_CYCLE_MAX = 64.5 / d
    !(decide (u * d > 64500000) || decide (u * d < 1000 * (d - 64000)))
  else if d = 1000 then !(decide (u > 1000) || decide (u < 0))
  else !(decide (u > 1000) || decide (u * d < 1000000))

/-- mmcme2.py:206-208; the whole part is compared with 2 -/
def frac0 (d : Int) : Bool := decide (d % 1000 > 0) && decide (d ≥ 2000)

/-- mmcme2.py:210-221 -/
def out0Chk (o : Out) : Bool :=
  rangeChk o.divide 1000 128000 && !(decide (o.divide > 1000) && decide (o.divide < 2000)) &&
  rangeChk o.phase (-360000) 360000 &&
  (if frac0 o.divide then decide (o.duty = 500) else rangeChk o.duty 1 999 && dutyChk o.divide o.duty)

/-- mmcme2.py:223-230 -/
def outChk (o : Out) : Bool :=
  rangeChk o.divide 1 128 && rangeChk o.phase (-360000) 360000 && rangeChk o.duty 1 999 && dutyChk (1000 * o.divide) o.duty

/-- mmcme2.py:256-257: `0.001 * int(1000.0 * (1000.0 / freq))`, in fs; the result of `int` is in ps -/
def chkT (freq : Int) : Int := 1000 * (1000000 / freq)

/-- mmcme2.py:261-264 -/
def periodChk (p : Int) : Bool := !(decide (p > chkT 10) || decide (p < chkT 1066))

/-- mmcme2.py:267-276: `1000 * mult / (period * divclk)` against 600 and 1600, both sides multiplied -/
def vcoChk (c : Cfg) (p : Int) : Bool :=
  decide (p = 0) || !(decide (1000000 * c.mult > 1600 * (p * c.divclk)) || decide (1000000 * c.mult < 600 * (p * c.divclk)))

/-- mmcme2.py:201-276: no AssertionError is raised -/
def accepted (c : Cfg) : Bool :=
  ["OPTIMIZED", "HIGH", "LOW"].contains c.bandwidth &&
  ["ZHOLD", "BUF_IN", "EXTERNAL", "INTERNAL"].contains c.compensation &&
  ["CENTER_HIGH", "CENTER_LOW", "DOWN_HIGH", "DOWN_LOW"].contains c.ssMode &&
  (decide (4000 ≤ c.ssModPeriod) && decide (c.ssModPeriod ≤ 40000)) &&
  out0Chk c.out0 && c.outs.all outChk &&
  rangeChk c.mult 2000 64000 && rangeChk c.fbPhase (-360000) 360000 && rangeChk c.divclk 1 106 &&
  rangeChk c.jitter1 0 999 && rangeChk c.jitter2 0 999 &&
  periodChk c.period1 && (decide (c.period2 = 0) || periodChk c.period2) &&
  !(decide (c.period1 = 0) && decide (c.period2 = 0)) &&
  vcoChk c c.period1 && vcoChk c c.period2

/-- the values of mmcme2.py:26-81 -/
def defaults : Cfg where
  bandwidth := "OPTIMIZED"
  compensation := "ZHOLD"
  ssMode := "CENTER_HIGH"
  ssModPeriod := 10000
  mult := 5000
  fbPhase := 0
  divclk := 1
  period1 := 0
  period2 := 0
  jitter1 := 10
  jitter2 := 10
  out0 := ⟨1000, 0, 500⟩
  outs := List.replicate 6 ⟨1, 0, 500⟩

/-- the values of mmcme2.py:290-319 -/
def exMain : Cfg := { defaults with mult := 10000, period1 := 10000000, out0 := ⟨10000, 0, 500⟩ }

end Verif.Mmcm
