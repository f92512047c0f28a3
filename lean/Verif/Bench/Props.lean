import Verif.Bench.Lemmas
/-!
C82: the driver of the benchmarks.
-/
namespace Verif.Props
open Verif Verif.Bench

/-! ### Command line -/

theorem bench_ofList_ne {l : List Char} {s : String} (h : l ≠ s.toList) : String.ofList l ≠ s := by
  intro e
  exact h (by rw [← e, String.toList_ofList])

theorem bench_opt_step (files : String → List Nat) (o : Opt) (ho : o.Valid) (hm : ∀ v, o ≠ .ms v) (l : List String) (c : Cfg) (errs : List String) :
    args files (o.text ++ l) c errs = args files l (o.apply c) errs := by
  have num : ∀ (a : String) (f : Int → Cfg → Cfg) (v : Int), scan a = .no → flag a c = none → numeric a = some f → (-2147483648 ≤ v ∧ v < 2147483648) →
      args files ([a, String.ofList (showInt v)] ++ l) c errs = args files l (f v c) errs := by
    intro a f v h1 h2 h3 h4
    simp only [List.cons_append, List.nil_append, args, h1, h2, h3, atoi_showInt h4]
  have flg : ∀ (a : String) (c' : Cfg), scan a = .no → flag a c = some c' → args files ([a] ++ l) c errs = args files l c' errs := by
    intro a c' h1 h2
    rw [List.cons_append, List.nil_append, args.eq_def]
    simp only [h1, h2]
  cases o with
  | what v =>
    simp only [Opt.text, List.cons_append, List.nil_append]
    rw [args.eq_def]
    simp only [scan_showInt, Opt.apply]
  | start v =>
    have ho' : 0 ≤ v ∧ v < 2147483648 := ho
    refine (num "-start" _ v (by decide +kernel) (by simp [flag]) (by simp [numeric]; rfl) (by omega)).trans ?_
    simp only [Opt.apply, toU32_of ho', Int.toNat_of_nonneg ho'.1]
  | stop v =>
    have ho' : 0 ≤ v ∧ v < 2147483648 := ho
    refine (num "-stop" _ v (by decide +kernel) (by simp [flag]) (by simp [numeric]; rfl) (by omega)).trans ?_
    simp only [Opt.apply, toU32_of ho']
  | cal v => exact num "-cal" _ v (by decide +kernel) (by simp [flag]) (by simp [numeric]; rfl) ho
  | loopStart v => exact num "-loop_start" _ v (by decide +kernel) (by simp [flag]) (by simp [numeric]; rfl) ho
  | samples v =>
    have ho' : 0 ≤ v ∧ v < 2147483648 := ho
    refine (num "-samples" _ v (by decide +kernel) (by simp [flag]) (by simp [numeric]; rfl) (by omega)).trans ?_
    simp only [Opt.apply, toU32_of ho']
  | ms v => exact absurd rfl (hm v)
  | param v => exact num "-param" _ v (by decide +kernel) (by simp [flag]) (by simp [numeric]; rfl) ho
  | userParam name v =>
    have h1 : scan (String.ofList ('-' :: 'p' :: ':' :: name.toList)) = .no := by
      simp [scan, skipSpace, number, sign, digits, List.dropWhile_cons, List.takeWhile_cons]
    have hne : ∀ s : String, s.toList.take 3 ≠ ['-', 'p', ':'] → String.ofList ('-' :: 'p' :: ':' :: name.toList) ≠ s := by
      intro s hs
      refine bench_ofList_ne fun e => hs ?_
      rw [← e]; rfl
    have h2 : flag (String.ofList ('-' :: 'p' :: ':' :: name.toList)) c = none := by
      unfold flag
      iterate 17 rw [if_neg (hne _ (by decide +kernel))]
    have h3 : numeric (String.ofList ('-' :: 'p' :: ':' :: name.toList)) = none := by
      unfold numeric
      iterate 11 rw [if_neg (hne _ (by decide +kernel))]
    have h4 : paramName (String.ofList ('-' :: 'p' :: ':' :: name.toList)) = some name := by
      simp [paramName]
    simp only [Opt.text, List.cons_append, List.nil_append, args, h1, h2, h3, h4, Opt.apply, setParam]
  | linear v => exact num "-linear" _ v (by decide +kernel) (by simp [flag]) (by simp [numeric]; rfl) ho
  | center v =>
    have ho' : 0 ≤ v ∧ v < 2147483648 := ho
    refine (num "-center" _ v (by decide +kernel) (by simp [flag]) (by simp [numeric]; rfl) (by omega)).trans ?_
    simp only [Opt.apply, toU32_of ho']
  | steady v =>
    have ho' : 0 ≤ v ∧ v < 2147483648 := ho
    refine (num "-steady" _ v (by decide +kernel) (by simp [flag]) (by simp [numeric]; rfl) (by omega)).trans ?_
    simp only [Opt.apply, toU32_of ho']
  | single v => exact num "-single" _ v (by decide +kernel) (by simp [flag]) (by simp [numeric]; rfl) ho
  | fixLoop => exact flg "-fix_loop" _ (by decide +kernel) (by simp [flag]; rfl)
  | showLoop => exact flg "-show_loop" _ (by decide +kernel) (by simp [flag]; rfl)
  | showTime => exact flg "-show_time" _ (by decide +kernel) (by simp [flag]; rfl)
  | mem => exact flg "-mem" _ (by decide +kernel) (by simp [flag]; rfl)
  | nocal => exact flg "-nocal" _ (by decide +kernel) (by simp [flag]; rfl)
  | diag => exact flg "-diag" _ (by decide +kernel) (by simp [flag]; rfl)
  | geom => exact flg "-geom" _ (by decide +kernel) (by simp [flag]; rfl)
  | metric m =>
    cases m
    · exact flg "-pts" _ (by decide +kernel) (by simp [flag]; rfl)
    · exact flg "-ops" _ (by decide +kernel) (by simp [flag]; rfl)
    · exact flg "-iob" _ (by decide +kernel) (by simp [flag]; rfl)
    · exact flg "-wiob" _ (by decide +kernel) (by simp [flag]; rfl)
    · exact flg "-riob" _ (by decide +kernel) (by simp [flag]; rfl)
    · exact flg "-all" _ (by decide +kernel) (by simp [flag]; rfl)
    · exact flg "-data" _ (by decide +kernel) (by simp [flag]; rfl)
    · exact flg "-lat" _ (by decide +kernel) (by simp [flag]; rfl)

/-- **C82, partial (command line).** Every command line of options with `int` values gives the settings that the options describe, in order, without a message (`-data` only with at least 3
samples).  Missing: `-ms` (C82_milliseconds_false) and an option without its value (C82_last_argument_false). -/
theorem C82_options_partial (files : String → List Nat) (os : List Opt) (h : ∀ o ∈ os, o.Valid ∧ ∀ v, o ≠ .ms v)
    (hd : (settings os).metric = .data → 3 ≤ (settings os).samples) : args files (os.flatMap Opt.text) {} [] = .run (settings os) [] := by
  have key : ∀ (os : List Opt) (c : Cfg), (∀ o ∈ os, o.Valid ∧ ∀ v, o ≠ .ms v) → args files (os.flatMap Opt.text) c [] = args files [] (os.foldl (fun c o => o.apply c) c) [] := by
    intro os
    induction os with
    | nil => intro c _; rfl
    | cons o os ih =>
      intro c h
      rw [List.flatMap_cons, bench_opt_step files o (h o (by simp)).1 (h o (by simp)).2]
      exact ih _ fun o ho => h o (by simp [ho])
  rw [key os {} h]
  show args files [] (settings os) [] = _
  rw [args, if_neg (by rintro ⟨h1, h2⟩; have := hd h1; omega)]

example : args (fun _ => []) ["-7", "-start", "4", "-stop", "16", "-samples", "3", "-data", "-p:rows", "64", "-linear", "-5"] {} [] =
    .run (settings [.what 7, .start 4, .stop 16, .samples 3, .metric .data, .userParam "rows" "64", .linear (-5)]) [] :=
  (congrArg (fun l => args (fun _ => []) l {} []) (by decide +kernel)).trans
    (C82_options_partial (fun _ => []) [.what 7, .start 4, .stop 16, .samples 3, .metric .data, .userParam "rows" "64", .linear (-5)] (by simp [Opt.Valid]) (by decide +kernel))

theorem bench_options (files : String → List Nat) (os : List Opt) (l : List String) (errs : List String) (c : Cfg) (h : ∀ o ∈ os, o.Valid ∧ ∀ v, o ≠ .ms v) :
    args files (os.flatMap Opt.text ++ l) c errs = args files l (os.foldl (fun c o => o.apply c) c) errs := by
  induction os generalizing c with
  | nil => rfl
  | cons o os ih =>
    rw [List.flatMap_cons, List.append_assoc, bench_opt_step files o (h o (by simp)).1 (h o (by simp)).2]
    exact ih _ fun o ho => h o (by simp [ho])

/-- **C82, the check of `-data`.** With fewer than 3 samples the program ends. -/
theorem C82_data_samples (files : String → List Nat) (os : List Opt) (h : ∀ o ∈ os, o.Valid ∧ ∀ v, o ≠ .ms v) (hd : (settings os).metric = .data) (hs : (settings os).samples < 3) :
    args files (os.flatMap Opt.text) {} [] = .exit (-1) := by
  have := bench_options files os [] [] {} h
  rw [List.append_nil] at this
  rw [this, args, if_pos ⟨hd, hs⟩]

example : args (fun _ => []) (Opt.text (.metric .data) ++ Opt.text (.samples 2)) {} [] = .exit (-1) :=
  C82_data_samples (fun _ => []) [.metric .data, .samples 2] (by simp [Opt.Valid]) (by decide +kernel) (by decide +kernel)

/-- **C82, defaults.** Without options sizes 4, 8, …, 2097152 are measured once each for a quarter of a second, in points per second, after calibration at 16 points. -/
theorem C82_defaults (files : String → List Nat) : ∃ c, args files [] {} [] = .run c [] ∧ c.what = 0 ∧ c.mode = .sweep ∧ c.metric = .pts ∧ c.samples = 1 ∧ c.goal = 1 / 4 ∧ c.doCal = true ∧ c.fixLoop = false ∧
    c.mem = false ∧ c.params = [] ∧ c.loopStart = 1 ∧ mValue c c.cal.toNat = some 16 ∧
    (List.range (c.stop + 1 - c.start)).map (fun j => mValue c (c.start + j)) = (List.range 20).map fun j => some (4 * 2 ^ j) :=
  ⟨{}, by rw [args]; rfl, rfl, rfl, rfl, rfl, rfl, rfl, rfl, rfl, rfl, rfl, by decide +kernel, by decide +kernel⟩

/-- **C82, odd arguments.** A value without digits counts as 0, a lone dash is ignored, and an argument that does not begin with a dash is reported and otherwise ignored; options before and after them are not affected. -/
theorem C82_odd_arguments (files : String → List Nat) (os : List Opt) (h : ∀ o ∈ os, o.Valid ∧ ∀ v, o ≠ .ms v) (hd : (settings os).metric ≠ .data) :
    (∀ v : String, (∀ c ∈ v.toList, c.isDigit = false) → args files (os.flatMap Opt.text ++ ["-stop", v]) {} [] = .run { settings os with stop := 0 } []) ∧
      args files (os.flatMap Opt.text ++ ["-"]) {} [] = .run (settings os) [] ∧
      ∀ (a : String) (c : Char) (l : List Char), a.toList = c :: l → c ≠ '-' → args files (os.flatMap Opt.text ++ [a]) {} [] = .run (settings os) [a] := by
  have hn : ∀ v : String, (∀ c ∈ v.toList, c.isDigit = false) → atoi v = some 0 := by
    intro v hv
    have hsub : ∀ c ∈ (sign (skipSpace v.toList)).2, c.isDigit = false := by
      intro c hc
      apply hv
      have h1 : c ∈ skipSpace v.toList := by
        revert hc
        generalize skipSpace v.toList = l
        unfold sign
        split
        · intro h; exact List.mem_cons_of_mem _ h
        · intro h; exact List.mem_cons_of_mem _ h
        · exact id
      exact (List.dropWhile_suffix _).subset h1
    have hdig : ∀ l : List Char, (∀ c ∈ l, c.isDigit = false) → digits l = (0, 0) := by
      intro l hl
      unfold digits
      cases l with
      | nil => rfl
      | cons c l => rw [List.takeWhile_cons_of_neg (by rw [hl c (by simp)]; simp)]; rfl
    have : number v.toList = none := by
      unfold number
      simp only [hdig _ hsub]
      rfl
    unfold atoi
    simp only [this]
    decide
  have fin : ∀ c errs, c.metric ≠ .data → args files [] c errs = .run c errs := by
    intro c errs hc
    rw [args, if_neg fun h => hc h.1]
  refine ⟨fun v hv => ?_, ?_, fun a c l ha hc => ?_⟩
  · rw [bench_options files os _ [] {} h]
    show args files ["-stop", v] (settings os) [] = _
    rw [args.eq_def]
    have e1 : scan "-stop" = .no := by decide +kernel
    have e2 : ∀ c, flag "-stop" c = none := by intro c; simp [flag]
    have e3 : numeric "-stop" = some fun v c => { c with stop := toU32 v } := by simp [numeric]
    simp only [e1, e2, e3, hn v hv]
    exact fin _ _ hd
  · rw [bench_options files os _ [] {} h]
    show args files ["-"] (settings os) [] = _
    rw [args.eq_def]
    have e1 : scan "-" = .eof := by decide +kernel
    simp only [e1]
    exact fin _ _ hd
  · rw [bench_options files os _ [] {} h]
    show args files [a] (settings os) [] = _
    have e1 : scan a = .no := by
      unfold scan
      rw [ha]
      split
      · rename_i h; cases h
      · rename_i h; injection h with h _; exact absurd h hc
      · rfl
    have ne : ∀ b : String, b.toList.head? = some '-' → a ≠ b := by
      rintro b hb rfl
      rw [ha] at hb
      injection hb with hb
      exact hc hb
    have e2 : ∀ c, flag a c = none := by
      intro c
      unfold flag
      repeat rw [if_neg (ne _ (by decide +kernel))]
    have e3 : numeric a = none := by
      unfold numeric
      repeat rw [if_neg (ne _ (by decide +kernel))]
    have e4 : paramName a = none := by
      unfold paramName
      rw [ha]
      split
      · rename_i h; injection h with h _; exact absurd h hc
      · rfl
    rw [args.eq_def]
    simp only [e1, e2, e3, e4]
    rw [if_neg (ne _ (by decide +kernel)), if_neg (ne _ (by decide +kernel))]
    exact fin _ _ hd

example : args (fun _ => []) (Opt.text (.start 3) ++ ["rows"]) {} [] = .run (settings [.start 3]) ["rows"] :=
  (C82_odd_arguments (fun _ => []) [.start 3] (by simp [Opt.Valid]) (by decide +kernel)).2.2 "rows" 'r' ['o', 'w', 's'] (by decide +kernel) (by decide)

/-- **C82 is false (`-ms`).** The goal of `-ms 250` is 2.5 seconds, not 250 milliseconds: the value is divided by 100. -/
theorem C82_milliseconds_false : ∃ c, args (fun _ => []) (Opt.text (.ms 250)) {} [] = .run c [] ∧ c.goal = 5 / 2 ∧ (settings [.ms 250]).goal = 1 / 4 :=
  ⟨{ goal := 5 / 2 }, by decide +kernel, by decide +kernel, by decide +kernel⟩

/-- **C82 is false (last argument).** An option at the end of the command line without its value reads a null pointer. -/
theorem C82_last_argument_false : args (fun _ => []) ["-start"] {} [] = .ub ∧ args (fun _ => []) ["-ops", "-p:rows"] {} [] = .ub ∧ args (fun _ => []) ["-mfile"] {} [] = .ub := by
  decide +kernel

/-! ### Sizes -/

/-- **C82, partial (sizes).** The size measured at each step is that of the progression, provided it is an `unsigned` number, the shift is less than 32 and `start + stop` is an `unsigned` number.
Missing: the other sizes (C82_sizes_false). -/
theorem C82_sizes_partial {c : Cfg} {i : Nat} {z : Int} (hz : size c i = some z) (h0 : 0 ≤ z) (h1 : z < 4294967296) (hs : c.start + c.stop < W₃₂)
    (hc : c.prog = .geometric → c.centered = true → i < (c.start + c.stop) / 2 + 32 ∧ (c.start + c.stop) / 2 < i + 32) : mValue c i = some z.toNat := by
  unfold size at hz
  unfold mValue
  simp only [Nat.mod_eq_of_lt hs]
  simp only at hz
  cases hp : c.prog with
  | userfile =>
    rw [hp] at hz
    simp only [Option.map_eq_some_iff] at hz ⊢
    obtain ⟨n, hn, rfl⟩ := hz
    rw [hn]; simp
  | linear =>
    rw [hp] at hz
    simp only [Option.some.injEq] at hz ⊢
    subst hz
    unfold toU32
    split <;> rename_i hc
    · rw [if_pos hc] at h0 h1; congr 1; rw [Int.emod_eq_of_lt h0 (by simpa using h1)]
    · rw [if_neg hc] at h0 h1; congr 1; rw [Int.emod_eq_of_lt h0 (by simpa using h1)]
  | geometric =>
    rw [hp] at hz
    simp only [Option.some.injEq] at hz ⊢
    by_cases hcc : c.centered = true
    · rw [if_pos hcc] at hz ⊢
      have := hc hp hcc
      by_cases hi : i < (c.start + c.stop) / 2
      · rw [if_pos hi] at hz ⊢
        rw [if_pos (by omega), ← hz, Int.toNat_natCast]
      · rw [if_neg hi] at hz ⊢
        rw [← hz] at h1
        rw [if_pos (by omega), ← hz, Int.toNat_natCast, Nat.mod_eq_of_lt (by exact_mod_cast h1)]
    · rw [if_neg hcc] at hz ⊢
      rw [← hz] at h1
      have h2 : 2 ^ i < 2 ^ 32 := by exact_mod_cast h1
      rw [if_pos ((Nat.pow_lt_pow_iff_right (by omega)).1 h2), ← hz, Int.toNat_natCast]

example : mValue { prog := .linear, scale := 100, centered := true, center := 1000, start := 10, stop := 20 } 12 = some 700 :=
  C82_sizes_partial (z := 700) (by decide +kernel) (by omega) (by omega) (by decide) (by decide)

/-- **C82 is false (sizes).** `-linear 100 -center 1000 -stop 30 -start 0` measures size 4294966796 where the progression is at -500; the 32nd power of two is a shift by 32; an empty `-mfile`
gives a last index of 2^32 - 1 and a first size outside the array; `-steady 31` measures size 2^64 - 2^31. -/
theorem C82_sizes_false :
    (size { prog := .linear, scale := 100, centered := true, center := 1000, start := 0, stop := 30 } 0 = some (-500) ∧
      mValue { prog := .linear, scale := 100, centered := true, center := 1000, start := 0, stop := 30 } 0 = some 4294966796) ∧
    (size {} 32 = some 4294967296 ∧ mValue {} 32 = none) ∧
    (∃ c, args (fun _ => []) ["-mfile", "empty"] {} [] = .run c [] ∧ c.start = 0 ∧ c.stop = 4294967295 ∧ ∀ f, sweep c f = .ub) ∧
    steadyM { start := 31 } = some 18446744071562067968 := by
  refine ⟨by decide +kernel, by decide +kernel, ⟨{ prog := .userfile, cal := 0, start := 0, stop := 4294967295 }, by decide +kernel, rfl, rfl, fun f => ?_⟩, by decide +kernel⟩
  have : mValue { prog := .userfile, cal := 0, start := 0, stop := 4294967295 } (toU32 0) = none := by decide +kernel
  simp only [sweep, this]

/-! ### Calibration -/

/-- **C82 (calibration ends).** Whatever time the calls take, the calibration ends. -/
theorem C82_calibration_ends (goal : ℚ) (time : Nat → Nat → ℚ) (k loop : Nat) (h : loop < W₆₄) : calib goal time W₆₄ k loop ≠ .forever :=
  calib_ends W₆₄ k loop h (by omega)

example : calib (1 / 4) (fun k l => if k % 2 = 0 then 1 / 1000 else l) W₆₄ 0 1 ≠ .forever := C82_calibration_ends _ _ _ _ (by decide)

/-- **C82, partial (calibration).** If each call takes the same positive time `c`, and the goal is at least 20 ms, the calibration finds the number of calls that takes the goal, rounded down, and at
least one.  Missing: calls too fast for a `size_t` count, in particular calls of measured time zero (C82_calibration_false). -/
theorem C82_calibration_partial {goal c : ℚ} (hc : 0 < c) (hg : 1 / 50 ≤ goal) (hG : goal / c < 18446744073709551616) (loop : Nat) (h : 1 ≤ loop) (hl : loop < W₆₄) :
    ∃ n, calib goal (fun _ l => c * l) W₆₄ 0 loop = .ok (ideal goal c, n) :=
  calib_ideal hc hg hG (fun _ _ => rfl) W₆₄ 0 loop h hl (by omega)

example : ∃ n, calib (1 / 4) (fun _ l => 1 / 1000000 * (l : ℚ)) W₆₄ 0 1 = .ok (250000, n) := by
  have := C82_calibration_partial (goal := 1 / 4) (c := 1 / 1000000) (by norm_num) (by norm_num) (by norm_num) 1 (by omega) (by omega)
  rwa [show ideal (1 / 4) (1 / 1000000) = 250000 from by decide +kernel] at this

/-- **C82 is false (calibration).** If the measured times are zero, the loop count grows until its conversion from `float` is undefined. -/
theorem C82_calibration_false {goal : ℚ} (hg : 1 / 50 ≤ goal) (loop : Nat) (h : 1 ≤ loop) (hl : loop < W₆₄) : calib goal (fun _ _ => 0) W₆₄ 0 loop = .ub :=
  calib_zero hg (fun _ _ => rfl) W₆₄ 0 loop h hl (by omega)

/-! ### Rows -/

/-- the times of the measurements of one size -/
def benchTimes (c : Cfg) (f : Fcn) (k M loop : Nat) : List ℚ := (List.range c.samples).map fun j => f.time (k + j) M loop

theorem bench_row {c : Cfg} {f : Fcn} {M loop : Nat} {l : List ℚ} {r : Row} (hl : l.length = c.samples) (h : row c f M loop (sortT l) = some r) :
    0 < c.samples ∧ r.loop = loop ∧ r.L = (if c.mem then toIdx (M * f.mem M) else M) ∧ IsMedian r.time l ∧
    ∃ lo hi, IsMin lo l ∧ IsMax hi l ∧ r.vals = match c.metric with
      | .all => [metric f M loop r.time .pts, metric f M loop r.time .ops, metric f M loop r.time .iob]
      | .data => [metric f M loop r.time .pts, metric f M loop hi .pts, metric f M loop lo .pts, f.mem M, f.ops M, f.riob M, f.wiob M, loop, r.time]
      | m => if 1 < c.samples then [metric f M loop r.time m, metric f M loop hi m, metric f M loop lo m] else [metric f M loop lo m] := by
  have hlen := (sortT_perm l).length_eq
  have h0 : 0 < c.samples := by
    rcases Nat.eq_zero_or_pos c.samples with h1 | h1
    · rw [row, List.getElem?_eq_none (by omega)] at h; cases h
    · exact h1
  rw [row, List.getElem?_eq_getElem (by omega), List.getElem?_eq_getElem (by omega), List.getElem?_eq_getElem (by omega)] at h
  simp only [Option.bind_some, Option.map_some, Option.some.injEq] at h
  have h1 : 0 < l.length := by omega
  have hmed := median_sorted h1
  have hmin := min_sorted h1
  have hmax := max_sorted h1
  simp only [← hl] at h ⊢
  subst h
  exact ⟨h1, rfl, rfl, hmed, _, _, hmin, hmax, rfl⟩

theorem bench_points {c : Cfg} {f : Fcn} : ∀ (n i k loop : Nat) (rs : List Row), points c f (List.range' i n) k loop = some rs →
    rs.length = n ∧ ∀ j (hj : j < rs.length), ∃ M l, mValue c (i + j) = some M ∧ row c f M l (sortT (benchTimes c f (k + j * c.samples) M l)) = some rs[j] := by
  intro n
  induction n with
  | zero =>
    intro i k loop rs h
    simp only [List.range'_zero, points, Option.some.injEq] at h
    subst h
    exact ⟨rfl, fun j hj => absurd hj (by simp)⟩
  | succ n ih =>
    intro i k loop rs h
    rw [List.range'_succ, points] at h
    simp only [Option.bind_eq_some_iff, Option.map_eq_some_iff] at h
    obtain ⟨x, hx, rs', hrs', rfl⟩ := h
    unfold point at hx
    simp only [Option.bind_eq_some_iff, Option.map_eq_some_iff] at hx
    obtain ⟨M, hM, r, hr, l, hl, rfl⟩ := hx
    obtain ⟨h1, h2⟩ := ih (i + 1) (k + c.samples) l rs' hrs'
    refine ⟨by simp [h1], fun j hj => ?_⟩
    cases j with
    | zero => exact ⟨M, loop, hM, by simpa [benchTimes] using hr⟩
    | succ j =>
      obtain ⟨M', l', h3, h4⟩ := h2 j (by simpa using hj)
      refine ⟨M', l', by rw [← h3]; congr 1; omega, ?_⟩
      rw [List.getElem_cons_succ, ← h4]
      congr 3
      rw [Nat.succ_mul]; omega

/-- **C82 (rows).** Every row of a sweep that ends is measured by its own `samples` consecutive calls, and the rows are those of the sizes from `start` to `stop`, in order.  The time is a median of the
measured times. -/
theorem C82_rows {c : Cfg} {f : Fcn} {rs : List Row} (h : sweep c f = .ok rs) :
    rs.length = c.stop + 1 - c.start ∧ ∃ k0, ∀ j (hj : j < rs.length), ∃ M, mValue c (c.start + j) = some M ∧ rs[j].L = (if c.mem then toIdx (M * f.mem M) else M) ∧
      IsMedian rs[j].time ((List.range c.samples).map fun s => f.time (k0 + j * c.samples + s) M rs[j].loop) := by
  unfold sweep at h
  split at h
  · cases h
  · next M0 hM0 =>
    simp only at h
    split at h
    · cases h
    · cases h
    · next loop k hstart =>
      split at h
      · cases h
      · split at h
        · cases h
        · next rs' hrs =>
          simp only [Out.ok.injEq] at h
          subst h
          obtain ⟨h1, h2⟩ := bench_points _ _ _ _ _ hrs
          refine ⟨h1, k, fun j hj => ?_⟩
          obtain ⟨M, l, h3, h4⟩ := h2 j hj
          have := bench_row (by simp [benchTimes]) h4
          obtain ⟨_, h5, h6, h7, _⟩ := this
          exact ⟨M, h3, h6, by rw [h5]; exact h7⟩

/-- a functor of one operation per point that takes one microsecond per point, and a little more each time -/
def benchFcn : Fcn where
  time k M l := M * l / 1000000 + k / 1000
  ops _ := 1
  riob _ := 4
  wiob _ := 4
  mem _ := 8

example : ∃ rs, sweep { start := 4, stop := 6, samples := 3, doCal := false, loopStart := 1000 } benchFcn = .ok rs ∧ rs.map Row.time = [17 / 1000, 7477 / 31250, 34411 / 125000] :=
  ⟨[⟨16, [16 / 17, 8 / 9, 1], 1000, 17 / 1000⟩, ⟨32, [7352 / 7477, 29408 / 30033, 29408 / 29783], 7352, 7477 / 31250⟩, ⟨64, [33536 / 34411, 4192 / 4317, 16768 / 17143], 4192, 34411 / 125000⟩],
    by decide +kernel, by decide +kernel⟩

theorem bench_metric {f : Fcn} {M loop : Nat} {m : Metric} {n : Int} (hm : counted f M m = some n) (t : ℚ) : metric f M loop t m = speed n M loop t := by
  cases m <;> simp only [counted, Option.some.injEq, reduceCtorEq] at hm <;> subst hm <;> simp only [metric, speed] <;> congr 1 <;> first | (push_cast; ring) | norm_num

theorem bench_speed_anti {n : Int} {M loop : Nat} (hn : 0 ≤ n) {s t : ℚ} (hs : 0 < s) (hst : s ≤ t) : speed n M loop t ≤ speed n M loop s := by
  have h1 : (0 : ℚ) ≤ n := by exact_mod_cast hn
  unfold speed
  exact div_le_div_of_nonneg_left (by positivity) (by positivity) (by linarith)

/-- **C82, partial (printed rates).** For the metrics of speed with more than one sample, the three numbers printed are the speed of the median time, the least and the greatest speed.  Missing: the
latency (C82_latency_false). -/
theorem C82_rates_partial {c : Cfg} {f : Fcn} {rs : List Row} (h : sweep c f = .ok rs) (hs : 1 < c.samples) (cnt : Nat → Int) (hm : ∀ M, counted f M c.metric = some (cnt M)) (hf : ∀ M, 0 ≤ cnt M)
    (ht : ∀ k M l, 0 < f.time k M l) :
    ∃ k0, ∀ j (hj : j < rs.length), ∃ M lo hi, mValue c (c.start + j) = some M ∧ rs[j].vals = [speed (cnt M) M rs[j].loop rs[j].time, lo, hi] ∧
      IsMin lo ((List.range c.samples).map fun s => speed (cnt M) M rs[j].loop (f.time (k0 + j * c.samples + s) M rs[j].loop)) ∧
      IsMax hi ((List.range c.samples).map fun s => speed (cnt M) M rs[j].loop (f.time (k0 + j * c.samples + s) M rs[j].loop)) := by
  unfold sweep at h
  split at h
  · cases h
  · next M0 hM0 =>
    simp only at h
    split at h
    · cases h
    · cases h
    · next loop k hstart =>
      split at h
      · cases h
      · split at h
        · cases h
        · next rs' hrs =>
          simp only [Out.ok.injEq] at h
          subst h
          obtain ⟨h1, h2⟩ := bench_points _ _ _ _ _ hrs
          refine ⟨k, fun j hj => ?_⟩
          obtain ⟨M, l, h3, h4⟩ := h2 j hj
          obtain ⟨_, h5, h6, h7, lo, hi, hlo, hhi, hv⟩ := bench_row (by simp [benchTimes]) h4
          rw [h5]
          refine ⟨M, speed (cnt M) M l hi, speed (cnt M) M l lo, h3, ?_, ?_, ?_⟩
          · rw [hv]
            have hmM := hm M
            simp only [← bench_metric hmM]
            cases hc : c.metric <;> rw [hc] at hmM <;> simp only [counted, reduceCtorEq] at hmM <;> simp only [if_pos hs]
          · obtain ⟨s, hs, e⟩ := List.mem_map.1 hhi.1
            refine ⟨List.mem_map.2 ⟨s, hs, by rw [e]⟩, fun x hx => ?_⟩
            obtain ⟨s', hs', rfl⟩ := List.mem_map.1 hx
            exact bench_speed_anti (hf M) (ht _ _ _) (hhi.2 _ (List.mem_map.2 ⟨s', hs', rfl⟩))
          · obtain ⟨s, hs, e⟩ := List.mem_map.1 hlo.1
            refine ⟨List.mem_map.2 ⟨s, hs, by rw [e]⟩, fun x hx => ?_⟩
            obtain ⟨s', hs', rfl⟩ := List.mem_map.1 hx
            exact bench_speed_anti (hf M) (e ▸ ht _ _ _) (hlo.2 _ (List.mem_map.2 ⟨s', hs', rfl⟩))

/-- a functor whose times are positive -/
def benchPos : Fcn := { benchFcn with time := fun k M l => (M * l + 1) / 1000000 + k / 1000 }

example : ∃ rs, sweep { start := 4, stop := 4, samples := 3, doCal := false, loopStart := 1000, metric := .iob } benchPos = .ok rs ∧
    ∃ k0, ∀ j (hj : j < rs.length), ∃ M lo hi, mValue { start := 4, stop := 4, samples := 3, doCal := false, loopStart := 1000, metric := .iob } (4 + j) = some M ∧
      rs[j].vals = [speed 8 M rs[j].loop rs[j].time, lo, hi] ∧
      IsMin lo ((List.range 3).map fun s => speed 8 M rs[j].loop (benchPos.time (k0 + j * 3 + s) M rs[j].loop)) ∧
      IsMax hi ((List.range 3).map fun s => speed 8 M rs[j].loop (benchPos.time (k0 + j * 3 + s) M rs[j].loop)) :=
  ⟨[⟨16, [128000 / 17001, 128000 / 18001, 128000 / 16001], 1000, 17001 / 1000000⟩], by decide +kernel,
    C82_rates_partial (c := { start := 4, stop := 4, samples := 3, doCal := false, loopStart := 1000, metric := .iob }) (by decide +kernel) (by decide) (fun _ => 8) (fun _ => rfl) (fun _ => by decide)
      (fun k M l => by simp only [benchPos]; positivity)⟩

/-- **C82 is false (latency).** With `-lat` and more than one sample the number printed as least is the greatest. -/
theorem C82_latency_false : ∃ rs, sweep { start := 4, stop := 4, samples := 3, doCal := false, loopStart := 1000, metric := .secs } benchFcn = .ok rs ∧
    rs.map Row.vals = [[17 / 16, 9 / 8, 1]] :=
  ⟨[⟨16, [17 / 16, 9 / 8, 1], 1000, 17 / 1000⟩], by decide +kernel, by decide +kernel⟩

/-- **C82 is false (no samples).** With `-samples 0` the median is read outside the vector of times. -/
theorem C82_no_samples_false (c : Cfg) (f : Fcn) (h : c.samples = 0) (h2 : c.doCal = false) (h3 : c.start ≤ c.stop) (h4 : c.stop < W₃₂ - 1) : sweep c f = .ub := by
  obtain ⟨n, hn⟩ : ∃ n, c.stop + 1 - c.start = n + 1 := ⟨c.stop - c.start, by omega⟩
  have hp : ∀ i k l, point c f i k l = none := by
    intro i k l
    unfold point
    cases mValue c i with
    | none => rfl
    | some M => simp [h, row, sortT]
  unfold sweep
  split
  · rfl
  · simp only [h2, Bool.false_eq_true, false_and, if_false]
    rw [if_neg (by omega), hn, List.range'_succ, points, hp]
    rfl

example : sweep { samples := 0, doCal := false } benchFcn = .ub := C82_no_samples_false _ _ rfl rfl (by decide) (by decide)

/-! ### Steady state -/

theorem bench_target_ge {G : ℚ} {l : Nat} : G ≤ target G l := by
  unfold target; split <;> linarith

theorem bench_next_ideal {G : ℚ} {l : Nat} (hG : 0 ≤ G) (hl : 1 ≤ l) (h : l = max 1 ⌊G⌋.toNat ∨ (l : ℚ) < G + 1) : max 1 ⌊target G l⌋.toNat = max 1 ⌊G⌋.toNat := by
  have h0 : 0 ≤ ⌊G⌋ := Int.floor_nonneg.2 hG
  have h1 : ⌊G⌋ ≤ ⌊target G l⌋ := Int.floor_le_floor bench_target_ge
  rcases lt_or_ge G l with hlt | hge
  · have hv : target G l < l := by unfold target; rw [if_pos hlt]; linarith
    have hvf : ⌊target G l⌋ < (l : Int) := Int.floor_lt.2 (by exact_mod_cast hv)
    have hfl : ⌊G⌋ < (l : Int) := Int.floor_lt.2 (by exact_mod_cast hlt)
    rcases h with h | h
    · omega
    · have : (l : Int) - 1 ≤ ⌊G⌋ := Int.le_floor.2 (by push_cast; linarith)
      omega
  · rw [target, if_neg (not_lt.2 hge)]

theorem bench_steady {goal c : ℚ} (hc : 0 < c) (hg : 0 ≤ goal) (hG : goal / c < 2147483648) {l0 : Nat} (h1 : 1 ≤ l0) (h2 : l0 < 2147483648) : ∀ n,
    ∃ l, Verif.Bench.steady goal (fun _ l => c * l) n l0 = some l ∧ 1 ≤ l ∧ l < 2147483648 ∧ (l = ideal goal c ∨ (l : ℚ) ≤ goal / c + l0 / 10 ^ n)
  | 0 => ⟨l0, rfl, h1, h2, .inr (by have := div_nonneg hg hc.le; simp; linarith)⟩
  | n + 1 => by
    obtain ⟨l, e, h3, h4, h5⟩ := bench_steady hc hg hG h1 h2 n
    have hp := div_nonneg hg hc.le
    have h4' : (l : ℚ) < 2147483648 := by exact_mod_cast h4
    have hl0 : (0 : ℚ) ≤ (l0 : ℚ) / 10 ^ n := by positivity
    have ht : target (goal / c) l < 2147483648 := by unfold target; split <;> linarith
    have hfl := floor_lt_nat (n := 2147483648) (by simpa using ht) (by omega)
    refine ⟨max 1 ⌊target (goal / c) l⌋.toNat, ?_, by omega, by omega, ?_⟩
    · rw [Verif.Bench.steady, e, Option.bind_some, adapt_linear hc hg h3 h4 hG]
    · rcases h5 with h5 | h5
      · left; exact bench_next_ideal hp h3 (.inl h5)
      · rcases lt_or_ge (goal / c) l with hlt | hge
        · have hv : target (goal / c) l ≤ goal / c + l0 / 10 ^ (n + 1) := by
            unfold target; rw [if_pos hlt, pow_succ, ← div_div]; linarith
          have h0 : 0 ≤ ⌊target (goal / c) l⌋ := Int.floor_nonneg.2 (le_trans hp bench_target_ge)
          rcases Nat.lt_or_ge ⌊target (goal / c) l⌋.toNat 1 with h6 | h6
          · left
            have : ⌊goal / c⌋ ≤ ⌊target (goal / c) l⌋ := Int.floor_le_floor bench_target_ge
            unfold ideal; omega
          · right
            have e1 : ((max 1 ⌊target (goal / c) l⌋.toNat : Nat) : ℚ) = (⌊target (goal / c) l⌋ : ℚ) := by
              have : ((max 1 ⌊target (goal / c) l⌋.toNat : Nat) : Int) = ⌊target (goal / c) l⌋ := by omega
              exact_mod_cast this
            rw [e1]
            exact le_trans (Int.floor_le _) hv
        · left
          rw [target, if_neg (not_lt.2 hge)]; rfl

/-- **C82, partial (steady state).** If each call takes the same positive time `c`, the measurement without end uses, from the 12th pass on, the number of calls that takes the goal, rounded down, and
at least one.  Missing: calls so fast that the number is not an `int`, in particular of measured time zero (C82_steady_false). -/
theorem C82_steady_partial {goal c : ℚ} (hc : 0 < c) (hg : 0 ≤ goal) (hG : goal / c < 2147483648) {l0 : Nat} (h1 : 1 ≤ l0) (h2 : l0 < 2147483648) (n : Nat) (hn : 11 ≤ n) :
    Verif.Bench.steady goal (fun _ l => c * l) n l0 = some (ideal goal c) := by
  obtain ⟨m, rfl⟩ : ∃ m, n = m + 1 := ⟨n - 1, by omega⟩
  obtain ⟨l, e, h3, h4, h5⟩ := bench_steady hc hg hG h1 h2 m
  rw [Verif.Bench.steady, e, Option.bind_some, adapt_linear hc hg h3 h4 hG]
  congr 1
  refine bench_next_ideal (div_nonneg hg hc.le) h3 (h5.imp id fun h => ?_)
  have h6 : (l0 : ℚ) / 10 ^ m < 1 := by
    rw [div_lt_one (by positivity)]
    have : (10 : ℚ) ^ 10 ≤ 10 ^ m := pow_le_pow_right₀ (by norm_num) (by omega)
    have h2' : (l0 : ℚ) < 2147483648 := by exact_mod_cast h2
    norm_num at this
    linarith
  linarith

example : Verif.Bench.steady (1 / 4) (fun _ l => 1 / 1000 * (l : ℚ)) 11 2000000000 = some 250 := by
  have := C82_steady_partial (goal := 1 / 4) (c := 1 / 1000) (by norm_num) (by norm_num) (by norm_num) (l0 := 2000000000) (by omega) (by omega) 11 (by omega)
  rwa [show ideal (1 / 4) (1 / 1000) = 250 from by decide +kernel] at this

theorem bench_steady_add (goal : ℚ) (time : Nat → Nat → ℚ) (m n l0 : Nat) :
    Verif.Bench.steady goal time (m + n) l0 = (Verif.Bench.steady goal time m l0).bind fun l => Verif.Bench.steady goal (fun k => time (m + k)) n l := by
  induction n with
  | zero => cases h : Verif.Bench.steady goal time m l0 <;> simp [h, Verif.Bench.steady]
  | succ n ih =>
    rw [← Nat.add_assoc, Verif.Bench.steady, ih]
    cases Verif.Bench.steady goal time m l0 <;> rfl

/-- **C82, partial (steady state after a change).** Whatever the times were in the first `m` passes, if each call takes the same positive time `c` from then on, the number of calls is that which takes the
goal from the 12th pass after it on; the size measured is 2^start.  Missing: as for C82_steady_partial; `start` of 31 or more (C82_sizes_false). -/
theorem C82_steady_later_partial {goal c : ℚ} (hc : 0 < c) (hg : 0 ≤ goal) (hG : goal / c < 2147483648) (time : Nat → Nat → ℚ) (m l0 l : Nat) (ht : ∀ k, m ≤ k → ∀ l, time k l = c * l)
    (hl : Verif.Bench.steady goal time m l0 = some l) (h1 : 1 ≤ l) (h2 : l < 2147483648) (n : Nat) (hn : m + 11 ≤ n) :
    Verif.Bench.steady goal time n l0 = some (ideal goal c) ∧ ∀ s : Cfg, s.start < 31 → steadyM s = some (2 ^ s.start) := by
  constructor
  · obtain ⟨d, rfl⟩ : ∃ d, n = m + d := ⟨n - m, by omega⟩
    rw [bench_steady_add, hl, Option.bind_some]
    have : (fun k => time (m + k)) = fun (_ : Nat) (l : Nat) => c * (l : ℚ) := by
      funext k l
      exact ht (m + k) (by omega) l
    rw [this]
    exact C82_steady_partial hc hg hG h1 h2 d (by omega)
  · intro s hs
    unfold steadyM
    rw [if_pos (by omega), if_neg (by omega)]

/-- The first pass takes twice as long as the later ones. -/
example : Verif.Bench.steady (1 / 4) (fun k l => if k = 0 then 1 / 500 * (l : ℚ) else 1 / 1000 * l) 12 100 = some 250 := by
  have h : Verif.Bench.steady (1 / 4) (fun k l => if k = 0 then 1 / 500 * (l : ℚ) else 1 / 1000 * l) 1 100 = some 125 := by
    simp only [Verif.Bench.steady, Option.bind_some]
    decide +kernel
  have := (C82_steady_later_partial (goal := 1 / 4) (c := 1 / 1000) (by norm_num) (by norm_num) (by norm_num) _ 1 100 125 (fun k hk l => if_neg (by omega)) h (by omega) (by omega) 12 (by omega)).1
  rwa [show ideal (1 / 4) (1 / 1000) = 250 from by decide +kernel] at this

/-- **C82, `-fix_loop`.** Every size is measured with the number of calls given by `-loop_start`. -/
theorem C82_fix_loop {c : Cfg} {f : Fcn} {rs : List Row} (h : sweep c f = .ok rs) (hf : c.fixLoop = true) : ∀ r ∈ rs, r.loop = toIdx c.loopStart := by
  have key : ∀ (l : List Nat) (k loop : Nat) (rs : List Row), points c f l k loop = some rs → ∀ r ∈ rs, r.loop = loop := by
    intro l
    induction l with
    | nil =>
      intro k loop rs h r hr
      simp only [points, Option.some.injEq] at h
      subst h
      cases hr
    | cons i l ih =>
      intro k loop rs h r hr
      simp only [points, point, nextLoop, hf, if_true] at h
      cases hM : mValue c i with
      | none => simp [hM] at h
      | some M =>
        rw [hM] at h
        simp only [Option.bind_some] at h
        cases hR : row c f M loop (sortT ((List.range c.samples).map fun j => f.time (k + j) M loop)) with
        | none => simp [hR] at h
        | some R =>
          rw [hR] at h
          simp only [Option.bind_some, Option.map_some] at h
          cases hp : points c f l (k + c.samples) loop with
          | none => simp [hp] at h
          | some rs' =>
            rw [hp] at h
            simp only [Option.map_some, Option.some.injEq] at h
            subst h
            rcases List.mem_cons.1 hr with e | hr
            · rw [e]
              have : R.loop = loop := by
                unfold row at hR
                cases h1 : (sortT ((List.range c.samples).map fun j => f.time (k + j) M loop))[(c.samples - 1) / 2]? with
                | none => simp [h1] at hR
                | some a =>
                  cases h2 : (sortT ((List.range c.samples).map fun j => f.time (k + j) M loop))[0]? with
                  | none => simp [h1, h2] at hR
                  | some b =>
                    cases h3 : (sortT ((List.range c.samples).map fun j => f.time (k + j) M loop))[c.samples - 1]? with
                    | none => simp [h1, h2, h3] at hR
                    | some d =>
                      rw [h1, h2, h3] at hR
                      simp only [Option.bind_some, Option.map_some, Option.some.injEq] at hR
                      rw [← hR]
              exact this
            · exact ih _ _ _ hp r hr
  unfold sweep at h
  split at h
  · cases h
  · simp only [hf, not_true_eq_false, and_false, if_false] at h
    split at h
    · cases h
    · split at h
      · cases h
      · rename_i rs' hp
        injection h with h
        subst h
        exact key _ _ _ _ hp

example : ∃ rs, sweep { start := 4, stop := 6, fixLoop := true, loopStart := 50 } benchFcn = .ok rs ∧ rs.map Row.loop = [50, 50, 50] := by
  refine ⟨_, rfl, ?_⟩
  decide +kernel

/-- **C82 is false (steady state of fast calls).** If the measured time is zero, or the number of calls that takes the goal is 2^31 or more, the conversion to `int` is undefined. -/
theorem C82_steady_false (goal : ℚ) : (∀ l0 n, Verif.Bench.steady goal (fun _ _ => 0) (n + 1) l0 = none) ∧
    ∀ c, 0 < c → 2147483648 ≤ goal / c → Verif.Bench.steady goal (fun _ l => c * l) 1 1 = none := by
  refine ⟨fun l0 n => ?_, fun c hc h => ?_⟩
  · rw [Verif.Bench.steady]
    cases Verif.Bench.steady goal (fun _ _ => 0) n l0 with
    | none => rfl
    | some l => simp [adapt]
  · simp only [Verif.Bench.steady, Option.bind_some, Nat.cast_one, mul_one]
    unfold adapt
    simp only [if_neg hc.ne', if_neg (show ¬ goal / c < 1 from by linarith), Nat.cast_one, mul_one]
    unfold toLoop
    rw [if_pos (.inr h)]

example : (2147483648 : ℚ) ≤ 25 / (1 / 100000000) := by norm_num

/-! ### Time of the measurements -/

theorem bench_row_some {c : Cfg} {f : Fcn} {M loop : Nat} {l : List ℚ} (hl : l.length = c.samples) (hs : 1 ≤ c.samples) : ∃ r, row c f M loop (sortT l) = some r := by
  have hlen := (sortT_perm l).length_eq
  rw [row, List.getElem?_eq_getElem (by omega), List.getElem?_eq_getElem (by omega), List.getElem?_eq_getElem (by omega)]
  exact ⟨_, rfl⟩

theorem bench_goal_points {c : Cfg} {f : Fcn} {a : ℚ} {p : Int} (ha : 0 < a) (hp : p ≠ 0) (ht : ∀ k M l, f.time k M l = a * M * l) (ho : ∀ M, f.ops M = p)
    (hprog : c.prog = .geometric) (hcen : c.centered = false) (hfix : c.fixLoop = false) (hs : 1 ≤ c.samples) (hg : 0 < c.goal) :
    ∀ n i k loop : Nat, i + n ≤ 32 → 1 ≤ loop → loop < 2147483648 → c.goal / (a * 2 ^ i) < 2147483648 →
      c.goal - a * 2 ^ i < a * 2 ^ i * loop → a * 2 ^ i * loop ≤ max (a * 2 ^ i) (9 / 8 * c.goal) →
      ∃ rs, points c f (List.range' i n) k loop = some rs ∧ rs.length = n ∧ ∀ j (hj : j < rs.length),
        rs[j].time = a * 2 ^ (i + j) * rs[j].loop ∧ c.goal - a * 2 ^ (i + j) < rs[j].time ∧ rs[j].time ≤ max (a * 2 ^ (i + j)) (9 / 8 * c.goal) := by
  intro n
  induction n with
  | zero => intro i k loop _ _ _ _ _ _; exact ⟨[], rfl, rfl, fun j hj => absurd hj (by simp)⟩
  | succ n ih =>
    intro i k loop hi h1 h2 hG hlo hhi
    have hM : mValue c i = some (2 ^ i) := by
      unfold mValue
      simp only [hprog, hcen, Bool.false_eq_true, if_false, if_pos (show i < 32 from by omega)]
    have hk : (0 : ℚ) < a * 2 ^ i := by positivity
    obtain ⟨r, hr⟩ := bench_row_some (c := c) (f := f) (M := 2 ^ i) (loop := loop) (l := (List.range c.samples).map fun j => f.time (k + j) (2 ^ i) loop) (by simp) hs
    obtain ⟨_, hr2, _, hr4, _⟩ := bench_row (by simp) hr
    have htime : r.time = a * 2 ^ i * loop := by
      obtain ⟨s, _, e⟩ := List.mem_map.1 hr4.1
      rw [← e, ht]; push_cast; rfl
    have hl' : (1 : ℚ) ≤ loop := by exact_mod_cast h1
    have h2' : (loop : ℚ) < 2147483648 := by exact_mod_cast h2
    have ek : a * 2 ^ (i + 1) = 2 * (a * 2 ^ i) := by ring
    have hk' : (0 : ℚ) < a * 2 ^ (i + 1) := by positivity
    have hG' : c.goal / (a * 2 ^ (i + 1)) < 2147483648 := by
      rw [div_lt_iff₀ hk] at hG
      rw [div_lt_iff₀ hk', ek]; linarith
    have hGp : 0 < c.goal / (a * 2 ^ (i + 1)) := div_pos hg hk'
    obtain ⟨T, hT⟩ : ∃ T, T = target (c.goal / (a * 2 ^ (i + 1))) loop := ⟨_, rfl⟩
    have hnext : nextLoop c f (2 ^ i) loop r.time = some (max 1 ⌊T⌋.toNat) := by
      have hp' : (p : ℚ) ≠ 0 := by exact_mod_cast hp
      have e2 : r.time * (2 * (p : ℚ) / p) = a * 2 ^ (i + 1) * loop := by
        rw [htime, mul_div_assoc, div_self hp', mul_one, ek]; ring
      unfold nextLoop growth
      simp only [hfix, Bool.false_eq_true, if_false, ho, if_neg hp, Option.bind_some, e2]
      rw [adapt_linear hk' hg.le h1 h2 hG', hT]
    have hTG : c.goal / (a * 2 ^ (i + 1)) ≤ T := hT ▸ bench_target_ge
    have hT2 : T < 2147483648 := by rw [hT]; unfold target; split <;> linarith
    have hTf : 0 ≤ ⌊T⌋ := Int.floor_nonneg.2 (by linarith)
    have hfl := floor_lt_nat (v := T) (n := 2147483648) (by simpa using hT2) (by omega)
    have hTk : a * 2 ^ (i + 1) * T ≤ max (a * 2 ^ (i + 1)) (9 / 8 * c.goal) := by
      have e3 : a * 2 ^ (i + 1) * (c.goal / (a * 2 ^ (i + 1))) = c.goal := mul_div_cancel₀ _ hk'.ne'
      rw [hT, target]
      split
      · next hlt =>
        have e4 : a * 2 ^ (i + 1) * (9 / 10 * (c.goal / (a * 2 ^ (i + 1))) + 1 / 10 * loop) = 9 / 10 * c.goal + 1 / 5 * (a * 2 ^ i * loop) := by
          calc _ = 9 / 10 * (a * 2 ^ (i + 1) * (c.goal / (a * 2 ^ (i + 1)))) + 1 / 10 * (a * 2 ^ (i + 1)) * loop := by ring
            _ = _ := by rw [e3, ek]; ring
        rw [e4]
        rcases le_max_iff.1 hhi with h | h
        · have hlt' : c.goal < a * 2 ^ (i + 1) * loop := by rw [div_lt_iff₀ hk'] at hlt; linarith
          have : a * 2 ^ (i + 1) * loop = 2 * (a * 2 ^ i * loop) := by rw [ek]; ring
          exact le_max_of_le_left (by rw [ek]; linarith)
        · exact le_max_of_le_right (by linarith)
      · rw [e3]; exact le_max_of_le_right (by linarith)
    obtain ⟨rs, h3, h4, h5⟩ := ih (i + 1) (k + c.samples) (max 1 ⌊T⌋.toNat) (by omega) (by omega) (by omega) hG' (by
        have hfl2 := Int.lt_floor_add_one T
        have : (⌊T⌋ : ℚ) ≤ ((max 1 ⌊T⌋.toNat : Nat) : ℚ) := by
          have : ⌊T⌋ ≤ ((max 1 ⌊T⌋.toNat : Nat) : Int) := by omega
          exact_mod_cast this
        have h6 : c.goal / (a * 2 ^ (i + 1)) < ((max 1 ⌊T⌋.toNat : Nat) : ℚ) + 1 := by linarith
        rw [div_lt_iff₀ hk'] at h6
        linarith) (by
        rcases Nat.lt_or_ge ⌊T⌋.toNat 1 with h6 | h6
        · rw [show max 1 ⌊T⌋.toNat = 1 from by omega]
          simp
        · have : ((max 1 ⌊T⌋.toNat : Nat) : ℚ) ≤ T := by
            have e5 : ((max 1 ⌊T⌋.toNat : Nat) : Int) = ⌊T⌋ := by omega
            have e6 : ((max 1 ⌊T⌋.toNat : Nat) : ℚ) = (⌊T⌋ : ℚ) := by exact_mod_cast e5
            rw [e6]; exact Int.floor_le _
          exact le_trans (mul_le_mul_of_nonneg_left this hk'.le) hTk)
    refine ⟨r :: rs, ?_, by simp [h4], fun j hj => ?_⟩
    · have hpt : point c f i k loop = some (r, max 1 ⌊T⌋.toNat, k + c.samples) := by
        unfold point
        simp only [hM, Option.bind_some, hr, hnext, Option.map_some]
      rw [List.range'_succ, points, hpt]
      simp only [Option.bind_some, h3, Option.map_some]
    · cases j with
      | zero =>
        simp only [List.getElem_cons_zero, Nat.add_zero]
        rw [hr2, htime]
        exact ⟨rfl, hlo, hhi⟩
      | succ j =>
        simp only [List.getElem_cons_succ]
        rw [show i + (j + 1) = i + 1 + j from by omega]
        exact h5 j (by simpa using hj)

/-- **C82, partial (measurement time).** If a call takes a time proportional to its size and the number of operations per point is constant, every row of a calibrated sweep over powers of two is
measured for more than the goal less one call, and for at most 9/8 of the goal or one call.  Missing: the linear progression (C82_linear_goal_false), and calls too fast for an `int` count. -/
theorem C82_goal_partial {c : Cfg} {f : Fcn} {a : ℚ} {p : Int} (ha : 0 < a) (hp : p ≠ 0) (ht : ∀ k M l, f.time k M l = a * M * l) (ho : ∀ M, f.ops M = p)
    (hprog : c.prog = .geometric) (hcen : c.centered = false) (hfix : c.fixLoop = false) (hcal : c.doCal = true) (hcs : c.cal = c.start) (hs : 1 ≤ c.samples) (hg : 1 / 50 ≤ c.goal)
    (hl : 1 ≤ c.loopStart ∧ c.loopStart < 2147483648) (hst : c.start ≤ c.stop) (hst2 : c.stop ≤ 31) (hG : c.goal / (a * 2 ^ c.start) < 2147483648) :
    ∃ rs, sweep c f = .ok rs ∧ rs.length = c.stop + 1 - c.start ∧ ∀ j (hj : j < rs.length),
      rs[j].time = a * 2 ^ (c.start + j) * rs[j].loop ∧ c.goal - a * 2 ^ (c.start + j) < rs[j].time ∧ rs[j].time ≤ max (a * 2 ^ (c.start + j)) (9 / 8 * c.goal) := by
  have hM : mValue c (toU32 c.cal) = some (2 ^ c.start) := by
    have e : toU32 c.cal = c.start := by rw [hcs]; unfold toU32; omega
    rw [e]
    unfold mValue
    simp only [hprog, hcen, Bool.false_eq_true, if_false, if_pos (show c.start < 32 from by omega)]
  have hk : (0 : ℚ) < a * 2 ^ c.start := by positivity
  have hloop : toIdx c.loopStart = c.loopStart.toNat := by unfold toIdx; omega
  obtain ⟨n, hn⟩ := calib_ideal (goal := c.goal) (c := a * 2 ^ c.start) (time := fun k loop => f.time k (2 ^ c.start) loop) hk hg (by linarith) (fun k l => by rw [ht]; push_cast; rfl) W₆₄ 0
    (toIdx c.loopStart) (by omega) (by omega) (by omega)
  have hGf : 0 ≤ ⌊c.goal / (a * 2 ^ c.start)⌋ := Int.floor_nonneg.2 (div_nonneg (by linarith) hk.le)
  have hfl := floor_lt_nat (v := c.goal / (a * 2 ^ c.start)) (n := 2147483648) (by simpa using hG) (by omega)
  have hid : ((ideal c.goal (a * 2 ^ c.start) : Nat) : ℚ) = max 1 (⌊c.goal / (a * 2 ^ c.start)⌋ : ℚ) := by
    have : ((ideal c.goal (a * 2 ^ c.start) : Nat) : Int) = max 1 ⌊c.goal / (a * 2 ^ c.start)⌋ := by unfold ideal; omega
    exact_mod_cast this
  obtain ⟨rs, h3, h4, h5⟩ := bench_goal_points (c := c) (f := f) ha hp ht ho hprog hcen hfix hs (by linarith) (c.stop + 1 - c.start) c.start n (ideal c.goal (a * 2 ^ c.start)) (by omega)
    (by rw [ideal]; exact le_max_left _ _) (by rw [ideal]; exact max_lt (by omega) hfl) hG (by
      have h1 := Int.lt_floor_add_one (c.goal / (a * 2 ^ c.start))
      have h2 := le_max_right (1 : ℚ) (⌊c.goal / (a * 2 ^ c.start)⌋ : ℚ)
      rw [← hid] at h2
      have h6 : c.goal / (a * 2 ^ c.start) < (ideal c.goal (a * 2 ^ c.start) : ℚ) + 1 := by linarith
      rw [div_lt_iff₀ hk] at h6
      linarith) (by
      rw [hid]
      rcases le_total (⌊c.goal / (a * 2 ^ c.start)⌋ : ℚ) 1 with h | h
      · rw [max_eq_left h, mul_one]; exact le_max_left _ _
      · rw [max_eq_right h]
        have h1 := Int.floor_le (c.goal / (a * 2 ^ c.start))
        have h2 := mul_le_mul_of_nonneg_left h1 hk.le
        rw [mul_div_cancel₀ _ hk.ne'] at h2
        exact le_max_of_le_right (by linarith))
  refine ⟨rs, ?_, h4, h5⟩
  unfold sweep
  simp only [hM, hcal, hfix, true_and, Bool.false_eq_true, not_false_eq_true, if_true, hn]
  rw [if_neg (by omega), h3]

/-- a functor of one operation per point that takes one microsecond per point -/
def benchExact : Fcn where
  time _ M l := 1 / 1000000 * M * l
  ops _ := 1
  riob _ := 4
  wiob _ := 4
  mem _ := 8

example : ∃ rs, sweep { start := 4, cal := 4, stop := 21, samples := 3 } benchExact = .ok rs ∧ rs.length = 18 := by
  obtain ⟨rs, h1, h2, _⟩ := C82_goal_partial (c := { start := 4, cal := 4, stop := 21, samples := 3 }) (f := benchExact) (a := 1 / 1000000) (p := 1) (by norm_num) (by omega)
    (fun _ _ _ => rfl) (fun _ => rfl) rfl rfl rfl rfl rfl (by decide) (by norm_num) (by decide) (by decide) (by decide) (by norm_num)
  exact ⟨rs, h1, h2⟩

/-- **C82 is false (linear progression).** The next loop count is chosen for twice the size, whatever the next size is: with `-linear 100 -start 10` every row after the first is measured for
little more than half of the goal of 250 ms. -/
theorem C82_linear_goal_false : ∃ rs, sweep { prog := .linear, scale := 100, start := 10, stop := 14, doCal := false, loopStart := 250, showTime := true } benchExact = .ok rs ∧
    rs.map Row.time = [1 / 4, 1507 / 10000, 69 / 500, 273 / 2000, 679 / 5000] :=
  ⟨[⟨1000, [1], 250, 1 / 4⟩, ⟨1100, [1], 137, 1507 / 10000⟩, ⟨1200, [1], 115, 69 / 500⟩, ⟨1300, [1], 105, 273 / 2000⟩, ⟨1400, [1], 97, 679 / 5000⟩], by decide +kernel, by decide +kernel⟩

/-- **C82 (signs).** A sign in front of a number is read as a sign: `+` changes nothing and `-` negates; white space in front of either is skipped. -/
theorem C82_signs (c : Char) (l : List Char) (v : Int) (hc : c.isDigit = true) (hv : number (c :: l) = some v) :
    0 ≤ v ∧ number ('+' :: c :: l) = some v ∧ number ('-' :: c :: l) = some (-v) ∧ ∀ s : Char, s.isWhitespace = true → ∀ r, number (s :: r) = number r := by
  have hw : c.isWhitespace = false := by
    cases h : c.isWhitespace with
    | false => rfl
    | true =>
      simp only [Char.isWhitespace, Bool.or_eq_true, decide_eq_true_eq] at h
      rcases h with ((rfl | rfl) | rfl) | rfl <;> revert hc <;> decide
  have hm : c ≠ '-' := by rintro rfl; revert hc; decide
  have hp : c ≠ '+' := by rintro rfl; revert hc; decide
  have hs : skipSpace (c :: l) = c :: l := by simp [skipSpace, hw]
  have hsg : sign (c :: l) = (false, c :: l) := by
    unfold sign
    split
    · rename_i h; exact absurd (List.cons.inj h).1 hm
    · rename_i h; exact absurd (List.cons.inj h).1 hp
    · rfl
  have h1 : skipSpace ('+' :: c :: l) = '+' :: c :: l := by
    have : Char.isWhitespace '+' = false := by decide
    simp [skipSpace, this]
  have h2 : skipSpace ('-' :: c :: l) = '-' :: c :: l := by
    have : Char.isWhitespace '-' = false := by decide
    simp [skipSpace, this]
  have h3 : sign ('+' :: c :: l) = (false, c :: l) := rfl
  have h4 : sign ('-' :: c :: l) = (true, c :: l) := rfl
  simp only [number, hs, hsg] at hv
  by_cases hd : (digits (c :: l)).2 = 0
  · simp [hd] at hv
  · simp only [hd, if_false, Option.some.injEq] at hv
    simp only [Bool.false_eq_true, if_false] at hv
    refine ⟨by omega, ?_, ?_, ?_⟩
    · simp only [number, h1, h3, hd, if_false]; simp [hv]
    · simp only [number, h2, h4, hd, if_false]; simp [hv]
    · intro s hw r
      have : skipSpace (s :: r) = skipSpace r := by simp [skipSpace, hw]
      simp only [number, this]

example : number ['4', '2', 'x'] = some 42 ∧ number ['+', '4', '2', 'x'] = some 42 ∧ number [' ', '-', '4', '2', 'x'] = some (-42) := by decide

end Verif.Props
