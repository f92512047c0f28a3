import Verif.Domain.Model
import Mathlib.Data.Rat.Floor
import Mathlib.Algebra.Order.Field.Rat
/-!
Model of the driver of the benchmarks: command line (`/repo/benchmarks/main.cpp`) and measurement loops (`/repo/benchmarks/loop.hpp`).

Simplified: `float` and `double` are rational numbers, so there is no rounding; a division by zero is undefined behaviour where its result is converted to an integer, and elsewhere the
theorems assume positive times.  `1 << 31` is the number 2^31 converted to `int` (C++14).  The functor is its time in each call (the maximum over the processors, l.284-289), and its numbers
per point.  Allocators, `-pause`, `-verbose`, `-pool` and the output text are left out.
-/
namespace Verif.Bench
open Verif

/-- 2^32 -/
notation "W₃₂" => (4294967296 : Nat)

/-- conversion to `unsigned` -/
def toU32 (z : Int) : Nat := (z % (W₃₂ : Int)).toNat

inductive Metric where
  | pts | ops | iob | wiob | riob | all | data | secs
  deriving DecidableEq, Repr

inductive Prog where
  | geometric | linear | userfile
  deriving DecidableEq, Repr

inductive Mode where
  | steady | sweep | single | diag
  deriving DecidableEq, Repr

/-- the members of `Loop1P` (loop.hpp l.127-156) and `what` (main.cpp l.46); `start`, `stop`, `samples`, `center` are `unsigned` -/
structure Cfg where
  what : Int := 0
  start : Nat := 2
  stop : Nat := 21
  cal : Int := 4
  doCal : Bool := true
  fixLoop : Bool := false
  loopStart : Int := 1
  samples : Nat := 1
  goal : ℚ := 1 / 4
  metric : Metric := .pts
  mem : Bool := false
  centered : Bool := false
  prog : Prog := .geometric
  scale : Int := 10
  center : Nat := 1000
  userParam : Int := 0
  showLoop : Bool := false
  showTime : Bool := false
  mode : Mode := .sweep
  mArray : List Nat := []
  params : List (String × String) := []
  deriving DecidableEq

/-! ### Command line -/

/-- the digits at the start of a text, as a number -/
def digits (l : List Char) : Nat × Nat :=
  (l.takeWhile Char.isDigit).foldl (fun a c => (10 * a.1 + (c.toNat - 48), a.2 + 1)) (0, 0)

/-- white space at the start -/
def skipSpace (l : List Char) : List Char := l.dropWhile Char.isWhitespace

/-- a sign -/
def sign : List Char → Bool × List Char
  | '-' :: l => (true, l)
  | '+' :: l => (false, l)
  | l => (false, l)

/-- the number a text starts with, `none` if there is no digit -/
def number (l : List Char) : Option Int :=
  let s := sign (skipSpace l)
  let d := digits s.2
  if d.2 = 0 then none else some (if s.1 then -(d.1 : Int) else d.1)

/-- `atoi`: 0 without digits; undefined if the value is not an `int` -/
def atoi (s : String) : Option Int :=
  let v := (number s.toList).getD 0
  if -2147483648 ≤ v ∧ v < 2147483648 then some v else none

/-- result of `sscanf(arg, "-%d", &what)`: how it counts as a condition, and the value stored -/
inductive Scan where
  /-- 0: no match -/
  | no
  /-- -1: end of the text before the first conversion -/
  | eof
  | value (v : Int)
  deriving DecidableEq

def scan (s : String) : Scan :=
  match s.toList with
  | [] => .eof
  | '-' :: l => if skipSpace l = [] then .eof else match number l with
    | some v => .value v
    | none => .no
  | _ => .no

/-- what `main` does after the command line -/
inductive Start where
  /-- undefined behaviour -/
  | ub
  | exit (code : Int)
  | run (c : Cfg) (errors : List String)
  deriving DecidableEq

/-- options without value (main.cpp l.63-64, 69-72, 81-98, 121-126, 132-135) -/
def flag (a : String) (c : Cfg) : Option Cfg :=
  if a = "-fix_loop" then some { c with fixLoop := true }
  else if a = "-verbose" then some c
  else if a = "-pause" then some c
  else if a = "-ops" then some { c with metric := .ops }
  else if a = "-pts" then some { c with metric := .pts }
  else if a = "-iob" then some { c with metric := .iob }
  else if a = "-wiob" then some { c with metric := .wiob }
  else if a = "-riob" then some { c with metric := .riob }
  else if a = "-all" then some { c with metric := .all }
  else if a = "-data" then some { c with metric := .data }
  else if a = "-lat" then some { c with metric := .secs }
  else if a = "-geom" then some { c with prog := .geometric }
  else if a = "-mem" then some { c with mem := true }
  else if a = "-show_loop" then some { c with showLoop := true }
  else if a = "-show_time" then some { c with showTime := true }
  else if a = "-diag" then some { c with mode := .diag }
  else if a = "-nocal" then some { c with doCal := false }
  else none

/-- options with a number (l.52-68, 73-74, 99-108, 127-131, 136-140); `-ms` divides by 100 (l.68) -/
def numeric (a : String) : Option (Int → Cfg → Cfg) :=
  if a = "-start" then some fun v c => { c with start := toU32 v, cal := toU32 v }
  else if a = "-stop" then some fun v c => { c with stop := toU32 v }
  else if a = "-cal" then some fun v c => { c with cal := v }
  else if a = "-loop_start" then some fun v c => { c with loopStart := v }
  else if a = "-samples" then some fun v c => { c with samples := toU32 v }
  else if a = "-ms" then some fun v c => { c with goal := v / 100 }
  else if a = "-param" then some fun v c => { c with userParam := v }
  else if a = "-linear" then some fun v c => { c with prog := .linear, scale := v }
  else if a = "-center" then some fun v c => { c with centered := true, center := toU32 v }
  else if a = "-steady" then some fun v c => { c with mode := .steady, start := toU32 v }
  else if a = "-single" then some fun v c => { c with mode := .single, cal := v }
  else none

/-- `-p:name value` (l.75-80): the name -/
def paramName (a : String) : Option String :=
  match a.toList with
  | '-' :: 'p' :: ':' :: l => some (String.ofList l)
  | _ => none

/-- set a parameter: `param_[name] = value` -/
def setParam (l : List (String × String)) (name value : String) : List (String × String) := (name, value) :: l.filter (·.1 ≠ name)

/-- `-mfile` (l.109-120) -/
def mfile (vals : List Nat) (c : Cfg) : Cfg :=
  let m := c.mArray ++ vals
  { c with prog := .userfile, mArray := m, cal := 0, start := 0, stop := toU32 ((m.length : Int) - 1) }

/-- the loop over the arguments (l.48-166) and the check after it (l.168-172); `files` are the numbers in each file.  A missing value is read from `argv[argc]`, a null pointer. -/
def args (files : String → List Nat) : List String → Cfg → List String → Start
  | [], c, errs => if c.metric = .data ∧ c.samples < 3 then .exit (-1) else .run c errs
  | a :: l, c, errs =>
    match scan a with
    | .value v => args files l { c with what := v } errs
    | .eof => args files l c errs
    | .no => match flag a c with
      | some c => args files l c errs
      | none => match numeric a with
        | some f => match l with
          | [] => .ub
          | v :: l => match atoi v with
            | some v => args files l (f v c) errs
            | none => .ub
        | none => match paramName a with
          | some n => match l with
            | [] => .ub
            | v :: l => args files l { c with params := setParam c.params n v } errs
          | none =>
            if a = "-mfile" then match l with
              | [] => .ub
              | v :: l => args files l (mfile (files v) c) errs
            else if a = "-lib_config" then .exit 0
            else args files l c (errs ++ [a])

/-! ### Measurement -/

/-- `m_value` (loop.hpp l.213-239); `none`: shift by more than 31 or access outside `m_array_` -/
def mValue (c : Cfg) (i : Nat) : Option Nat :=
  let mid := (c.start + c.stop) % W₃₂ / 2
  match c.prog with
  | .userfile => c.mArray[i]?
  | .linear => if c.centered then some (toU32 (c.center + c.scale * ((i : Int) - mid))) else some (toU32 (c.scale * i))
  | .geometric =>
    if c.centered then
      if i < mid then (if mid - i < 32 then some (c.center / 2 ^ (mid - i)) else none)
      else (if i - mid < 32 then some (c.center * 2 ^ (i - mid) % W₃₂) else none)
    else if i < 32 then some (2 ^ i) else none

/-- the functor: time of its `k`-th call, and its numbers per point -/
structure Fcn where
  time : Nat → Nat → Nat → ℚ
  ops : Nat → Int
  riob : Nat → Int
  wiob : Nat → Int
  mem : Nat → Int

/-- `metric` (l.173-209) -/
def metric (f : Fcn) (M loop : Nat) (t : ℚ) : Metric → ℚ
  | .pts => (M : ℚ) * loop / (t * 1000000)
  | .ops => (M : ℚ) * f.ops M * loop / (t * 1000000)
  | .iob => (M : ℚ) * (f.riob M + f.wiob M : Int) * loop / (t * 1000000)
  | .wiob => (M : ℚ) * f.wiob M * loop / (t * 1000000)
  | .riob => (M : ℚ) * f.riob M * loop / (t * 1000000)
  | .secs => t * 1000000 / ((M : ℚ) * loop)
  | _ => 0

/-- the result of measuring -/
inductive Out (A : Type) where
  | ok (a : A)
  /-- undefined behaviour -/
  | ub
  /-- does not end -/
  | forever
  deriving DecidableEq

/-- one pass of the calibration (l.274-301): new loop count, and whether to go on -/
def calStep (goal t : ℚ) (loop : Nat) : Out (Nat × Bool) :=
  let t := if t ≤ 1 / 100 then 1 / 100 else t
  let factor := goal / t
  let v := factor * loop
  if v ≤ -1 ∨ (18446744073709551616 : ℚ) ≤ v then .ub
  else
    let l := ⌊v⌋.toNat
    let l := if l = 0 then 1 else l
    .ok (l, decide (21 / 20 ≤ factor ∧ loop < l))

/-- the calibration (l.266-302), at most `fuel` passes: loop count and number of calls -/
def calib (goal : ℚ) (time : Nat → Nat → ℚ) : Nat → Nat → Nat → Out (Nat × Nat)
  | 0, _, _ => .forever
  | fuel + 1, k, loop => match calStep goal (time k loop) loop with
    | .ub => .ub
    | .forever => .forever
    | .ok (l, true) => calib goal time fuel (k + 1) l
    | .ok (l, false) => .ok (l, k + 1)

/-- conversion to `int` and to `size_t` (`loop = (int)(factor * loop)`), `none` if it does not fit -/
def toLoop (v : ℚ) : Option Nat :=
  if v ≤ -2147483649 ∨ (2147483648 : ℚ) ≤ v then none
  else
    let z := if 0 ≤ v then ⌊v⌋ else -⌊-v⌋
    let l := toIdx z
    some (if l < 1 then 1 else l)

/-- the next loop count from the time expected for the next call (l.409-414, 496-500); `none`: division by zero or conversion that does not fit -/
def adapt (goal t : ℚ) (loop : Nat) : Option Nat :=
  if t = 0 then none
  else
    let factor := goal / t
    let factor := if factor < 1 then factor + 1 / 10 * (1 - factor) else factor
    toLoop (factor * loop)

/-- `growth` (l.406) -/
def growth (f : Fcn) (M : Nat) : Option ℚ := if f.ops M = 0 then none else some (2 * f.ops (2 * M) / f.ops M)

/-- a line of output -/
structure Row where
  L : Nat
  vals : List ℚ
  loop : Nat
  time : ℚ
  deriving DecidableEq

/-- the measured times in ascending order -/
def insertT (x : ℚ) : List ℚ → List ℚ
  | [] => [x]
  | y :: l => if x ≤ y then x :: y :: l else y :: insertT x l

def sortT : List ℚ → List ℚ
  | [] => []
  | x :: l => insertT x (sortT l)

/-- what is printed for one size (l.352-400); `ts` are the sorted times -/
def row (c : Cfg) (f : Fcn) (M loop : Nat) (ts : List ℚ) : Option Row :=
  (ts[(c.samples - 1) / 2]?).bind fun med => (ts[0]?).bind fun lo => (ts[c.samples - 1]?).map fun hi =>
    { L := if c.mem then toIdx (M * f.mem M) else M
      vals := match c.metric with
        | .all => [metric f M loop med .pts, metric f M loop med .ops, metric f M loop med .iob]
        | .data => [metric f M loop med .pts, metric f M loop hi .pts, metric f M loop lo .pts, f.mem M, f.ops M, f.riob M, f.wiob M, loop, med]
        | m => if 1 < c.samples then [metric f M loop med m, metric f M loop hi m, metric f M loop lo m] else [metric f M loop lo m]
      loop := loop
      time := med }

/-- the next loop count of `sweep` (l.402-415) -/
def nextLoop (c : Cfg) (f : Fcn) (M loop : Nat) (med : ℚ) : Option Nat :=
  if c.fixLoop then some loop else (growth f M).bind fun g => adapt c.goal (med * g) loop

/-- measure one size (l.329-416): row, next loop count, number of calls.  Without samples `mtime[(n_time-1)/2]` is outside the vector. -/
def point (c : Cfg) (f : Fcn) (i k loop : Nat) : Option (Row × Nat × Nat) :=
  (mValue c i).bind fun M =>
    let ts := sortT ((List.range c.samples).map fun j => f.time (k + j) M loop)
    (row c f M loop ts).bind fun r => (nextLoop c f M loop r.time).map fun l => (r, l, k + c.samples)

/-- the sizes of `sweep` from `i` on (l.327) -/
def points (c : Cfg) (f : Fcn) : List Nat → Nat → Nat → Option (List Row)
  | [], _, _ => some []
  | i :: l, k, loop => (point c f i k loop).bind fun x => (points c f l x.2.2 x.2.1).map fun rs => x.1 :: rs

/-- `sweep` (l.243-418).  The `unsigned` counter never exceeds the greatest `unsigned` number: the loop does not end (or ends in undefined behaviour, which is not distinguished here). -/
def sweep (c : Cfg) (f : Fcn) : Out (List Row) :=
  match mValue c (toU32 c.cal) with
  | none => .ub
  | some M =>
    let start : Out (Nat × Nat) := if c.doCal ∧ ¬c.fixLoop then calib c.goal (fun k loop => f.time k M loop) W₆₄ 0 (toIdx c.loopStart) else .ok (toIdx c.loopStart, 0)
    match start with
    | .ub => .ub
    | .forever => .forever
    | .ok (loop, k) =>
      if c.stop = W₃₂ - 1 ∧ c.start ≤ c.stop then .forever
      else match points c f (List.range' c.start (c.stop + 1 - c.start)) k loop with
        | none => .ub
        | some rs => .ok rs

/-- `steady` (l.462-506): the loop counts of the first `n` passes; `M = 1 << start_` (an `int`) -/
def steadyM (c : Cfg) : Option Nat := if c.start < 32 then some (if c.start = 31 then toIdx (-2147483648) else 2 ^ c.start) else none

def steady (goal : ℚ) (time : Nat → Nat → ℚ) : Nat → Nat → Option Nat
  | 0, loop => some loop
  | n + 1, loop => (steady goal time n loop).bind fun l => adapt goal (time n l) l

end Verif.Bench
