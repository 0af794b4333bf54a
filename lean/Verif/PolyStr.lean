/-!
# `parsePolyStr` (`hwtLib/logic/crcUtils.py`)

`re.findall` of the pattern `([-+]?\s*\d*\.?\d*)(x?\^?(\d+)?)`: every part is optional and greedy, so the match never needs to
backtrack. Numbers with a decimal point are not accepted by `int`. White space is a space; coefficients are integers.
-/

namespace Verif.PolyStr

/-- outcomes: `ValueError` of `int`, `IndexError` -/
inductive Err
  | value | index
deriving DecidableEq

def isDig (c : Char) : Bool := c.isDigit

/-- characters of an optional character -/
def opt (p : Char → Bool) : List Char → List Char × List Char
  | c :: cs => if p c then ([c], cs) else ([], c :: cs)
  | [] => ([], [])

/-- the longest sequence -/
def many (p : Char → Bool) (s : List Char) : List Char × List Char := (s.takeWhile p, s.dropWhile p)

/-- one match of the pattern: number part, power part, rest -/
def term (s : List Char) : List Char × List Char × List Char :=
  let a := opt (fun c => c = '-' || c = '+') s
  let b := many (· = ' ') a.2
  let c := many isDig b.2
  let d := opt (· = '.') c.2
  let e := many isDig d.2
  let f := opt (· = 'x') e.2
  let g := opt (· = '^') f.2
  let h := many isDig g.2
  (a.1 ++ b.1 ++ c.1 ++ d.1 ++ e.1, f.1 ++ g.1 ++ h.1, h.2)

/-- `findall`, crcUtils.py:45; after an empty match the position is moved by one character. `fuel`: characters left + 1 -/
def findall : Nat → List Char → List (List Char × List Char)
  | 0, _ => []
  | fuel + 1, s =>
    let t := term s
    if t.1 = [] ∧ t.2.1 = [] then
      match s with
      | [] => []
      | _ :: cs => findall fuel cs
    else (t.1, t.2.1) :: findall fuel t.2.2

def strip (s : List Char) : List Char := ((s.dropWhile (· = ' ')).reverse.dropWhile (· = ' ')).reverse

def toNat (s : List Char) : Nat := s.foldl (fun n c => n * 10 + (c.toNat - 48)) 0

/-- `int` of a stripped string: optional sign and digits -/
def pyInt (s : List Char) : Except Err Int :=
  match s with
  | '-' :: cs => if cs ≠ [] ∧ cs.all isDig then .ok (-(toNat cs : Int)) else .error .value
  | '+' :: cs => if cs ≠ [] ∧ cs.all isDig then .ok (toNat cs) else .error .value
  | cs => if cs ≠ [] ∧ cs.all isDig then .ok (toNat cs) else .error .value

/-- `re.match(r"\s*\+\s*1\s*", string)` of a stripped string: only a prefix has to match -/
def plusOne (s : List Char) : Bool :=
  match s.dropWhile (· = ' ') with
  | '+' :: cs => match cs.dropWhile (· = ' ') with
    | '1' :: _ => true
    | _ => false
  | _ => false

/-- `parsePolyStr_parse_n`, crcUtils.py:4-15 -/
def parseN (s : List Char) : Except Err Int :=
  if s = [] then .ok 1
  else if s = ['-'] then .ok (-1)
  else if s = ['+'] then .ok 1
  else if plusOne s then .ok 1
  else pyInt s

/-- `parsePolyStr_parse_p`, crcUtils.py:18-26; the part starts by `x` or there is no match in it -/
def parseP (s : List Char) : Except Err Nat :=
  if s = [] then .ok 0
  else match s with
    | 'x' :: cs =>
      let d := (many isDig (opt (· = '^') cs).2).1
      if d = [] then .ok 1 else .ok (toNat d)
    | _ => .error .index

/-- `res_dict`, crcUtils.py:44-54 -/
def addTerm (d : Nat → Option Int) (p : Nat) (n : Int) : Nat → Option Int :=
  fun q => if q = p then some ((d p).getD 0 + n) else d q

/-- the loop; the keys are collected for the check of indexes -/
def loop : List (List Char × List Char) → (Nat → Option Int) → List Nat → Except Err ((Nat → Option Int) × List Nat)
  | [], d, ks => .ok (d, ks)
  | (n, p) :: ts, d, ks =>
    let n := strip n
    let p := strip p
    if n = [] ∧ p = [] then loop ts d ks
    else match parseN n, parseP p with
      | .ok n, .ok p => loop ts (addTerm d p n) (p :: ks)
      | .error e, _ => .error e
      | _, .error e => .error e

/-- `parsePolyStr`, crcUtils.py:29-59 -/
def parse (s : List Char) (width : Nat) : Except Err (List Int) :=
  match loop (findall (s.length + 1) s) (fun _ => none) [] with
  | .error e => .error e
  | .ok (d, ks) => if ks.all (· < width) then .ok ((List.range width).map fun i => (d i).getD 0) else .error .index

end Verif.PolyStr
