import Verif.Bench.Model
/-!
What the driver of the benchmarks should do.
-/
namespace Verif.Bench
open Verif

/-- the options of the command line -/
inductive Opt where
  | what (v : Int)
  | start (v : Int) | stop (v : Int) | cal (v : Int) | loopStart (v : Int) | samples (v : Int) | ms (v : Int) | param (v : Int)
  | userParam (name v : String)
  | linear (v : Int) | center (v : Int) | steady (v : Int) | single (v : Int)
  | fixLoop | showLoop | showTime | mem | nocal | diag | geom
  | metric (m : Metric)

/-- the option that selects a metric -/
def metricName : Metric → String
  | .pts => "-pts" | .ops => "-ops" | .iob => "-iob" | .wiob => "-wiob" | .riob => "-riob" | .all => "-all" | .data => "-data" | .secs => "-lat"

/-- a decimal digit -/
def digitChar (d : Nat) : Char := (['0', '1', '2', '3', '4', '5', '6', '7', '8', '9'])[d]?.getD '0'

/-- decimal digits of a number -/
def decimal (n : Nat) : List Char := if n < 10 then [digitChar n] else decimal (n / 10) ++ [digitChar (n % 10)]

/-- an integer in decimal -/
def showInt (z : Int) : List Char := if z < 0 then '-' :: decimal z.natAbs else decimal z.natAbs

/-- how an option is written -/
def Opt.text : Opt → List String
  | what v => [String.ofList ('-' :: showInt v)]
  | start v => ["-start", String.ofList (showInt v)]
  | stop v => ["-stop", String.ofList (showInt v)]
  | cal v => ["-cal", String.ofList (showInt v)]
  | loopStart v => ["-loop_start", String.ofList (showInt v)]
  | samples v => ["-samples", String.ofList (showInt v)]
  | ms v => ["-ms", String.ofList (showInt v)]
  | param v => ["-param", String.ofList (showInt v)]
  | userParam name v => [String.ofList ('-' :: 'p' :: ':' :: name.toList), v]
  | linear v => ["-linear", String.ofList (showInt v)]
  | center v => ["-center", String.ofList (showInt v)]
  | steady v => ["-steady", String.ofList (showInt v)]
  | single v => ["-single", String.ofList (showInt v)]
  | fixLoop => ["-fix_loop"]
  | showLoop => ["-show_loop"]
  | showTime => ["-show_time"]
  | mem => ["-mem"]
  | nocal => ["-nocal"]
  | diag => ["-diag"]
  | geom => ["-geom"]
  | metric m => [metricName m]

/-- the number of an option is an `int`; counts and sizes are not negative -/
def Opt.Valid : Opt → Prop
  | what v | cal v | loopStart v | ms v | param v | linear v | single v => -2147483648 ≤ v ∧ v < 2147483648
  | start v | stop v | samples v | center v | steady v => 0 ≤ v ∧ v < 2147483648
  | _ => True

/-- what an option does: it changes one setting (`-start` also the size to calibrate with, `-steady`, `-single` and `-linear` also the mode); `-ms` gives the goal in milliseconds -/
def Opt.apply : Opt → Cfg → Cfg
  | what v, c => { c with what := v }
  | start v, c => { c with start := v.toNat, cal := v }
  | stop v, c => { c with stop := v.toNat }
  | cal v, c => { c with cal := v }
  | loopStart v, c => { c with loopStart := v }
  | samples v, c => { c with samples := v.toNat }
  | ms v, c => { c with goal := v / 1000 }
  | param v, c => { c with userParam := v }
  | userParam n s, c => { c with params := (n, s) :: c.params.filter (·.1 ≠ n) }
  | linear v, c => { c with prog := .linear, scale := v }
  | center v, c => { c with centered := true, center := v.toNat }
  | steady v, c => { c with mode := .steady, start := v.toNat }
  | single v, c => { c with mode := .single, cal := v }
  | fixLoop, c => { c with fixLoop := true }
  | showLoop, c => { c with showLoop := true }
  | showTime, c => { c with showTime := true }
  | mem, c => { c with mem := true }
  | nocal, c => { c with doCal := false }
  | diag, c => { c with mode := .diag }
  | geom, c => { c with prog := .geometric }
  | metric m, c => { c with metric := m }

/-- the settings after a command line -/
def settings (os : List Opt) : Cfg := os.foldl (fun c o => o.apply c) {}

/-- the `i`-th size of the progression, as a number -/
def size (c : Cfg) (i : Nat) : Option Int :=
  let mid := (c.start + c.stop) / 2
  match c.prog with
  | .userfile => c.mArray[i]?.map fun (n : Nat) => (n : Int)
  | .linear => some (if c.centered then c.center + c.scale * ((i : Int) - mid) else c.scale * i)
  | .geometric => some (if c.centered then (if i < mid then ((c.center / 2 ^ (mid - i) : Nat) : Int) else ((c.center * 2 ^ (i - mid) : Nat) : Int)) else ((2 ^ i : Nat) : Int))

/-- a median of measured times: at least half are not greater, and at least half are not less -/
def IsMedian (m : ℚ) (l : List ℚ) : Prop := m ∈ l ∧ l.length ≤ 2 * l.countP (· ≤ m) ∧ l.length ≤ 2 * l.countP (m ≤ ·)

/-- least and greatest -/
def IsMin (m : ℚ) (l : List ℚ) : Prop := m ∈ l ∧ ∀ x ∈ l, m ≤ x
def IsMax (m : ℚ) (l : List ℚ) : Prop := m ∈ l ∧ ∀ x ∈ l, x ≤ m

/-- what is counted per point by a metric of speed, `none` for the other metrics -/
def counted (f : Fcn) (M : Nat) : Metric → Option Int
  | .pts => some 1
  | .ops => some (f.ops M)
  | .iob => some (f.riob M + f.wiob M)
  | .wiob => some (f.wiob M)
  | .riob => some (f.riob M)
  | _ => none

/-- what was counted in `loop` calls with `M` points each, per microsecond -/
def speed (n : Int) (M loop : Nat) (t : ℚ) : ℚ := (n * (M * loop)) / (t * 10 ^ 6)

/-- the whole number of calls that takes the goal, at least one -/
def ideal (goal c : ℚ) : Nat := max 1 ⌊goal / c⌋.toNat

end Verif.Bench
