import Verif.Ocl.Spec
/-!
Lemmas for C83.
-/
namespace Verif.Ocl

theorem holders_append (l m : List (Option (Option Nat))) (o : Nat) : holders (l ++ m) o = holders l o + holders m o := by
  simp [holders]

theorem holders_one (x : Option (Option Nat)) (o : Nat) : holders [x] o = if x = some (some o) then 1 else 0 := by
  by_cases h : x = some (some o) <;> simp [holders, h]

theorem holders_set (l : List (Option (Option Nat))) (v : Nat) (a x : Option (Option Nat)) (h : l[v]? = some a) (o : Nat) :
    holders (l.set v x) o + (if a = some (some o) then 1 else 0) = holders l o + (if x = some (some o) then 1 else 0) := by
  induction l generalizing v with
  | nil => simp at h
  | cons y l ih =>
    have e : ∀ z m, holders (z :: m) o = holders [z] o + holders m o := fun z m => holders_append [z] m o
    cases v with
    | zero =>
      simp only [List.getElem?_cons_zero, Option.some.injEq] at h
      subst h
      rw [List.set_cons_zero, e x l, e y l, holders_one, holders_one]
      omega
    | succ v =>
      simp only [List.getElem?_cons_succ] at h
      have := ih v h
      rw [List.set_cons_succ, e y (l.set v x), e y l]
      omega

theorem holders_pos (l : List (Option (Option Nat))) (v o : Nat) (h : l[v]? = some (some (some o))) : 0 < holders l o := by
  have := holders_set l v _ none h o
  simp at this
  omega

/-- the counts agree, and no object exists that was not created -/
structure Inv (s : St) (r : Ref) : Prop where
  vars : s.vars = r.vars
  next : s.next = r.next
  ext : ∀ o, s.ext o = r.ext o
  cnt : ∀ o, s.cnt o = r.ext o + holders r.vars o
  fresh : ∀ o, r.next ≤ o → s.cnt o = 0

theorem retain_ok (s : St) (o : Nat) (h : 0 < s.cnt o) : retain s o = .ok { s with cnt := fun x => if x = o then s.cnt x + 1 else s.cnt x } := by
  unfold retain; rw [if_neg (by omega)]

theorem release_ok (s : St) (o : Nat) (h : 0 < s.cnt o) : release s o = .ok { s with cnt := fun x => if x = o then s.cnt x - 1 else s.cnt x } := by
  unfold release; rw [if_neg (by omega)]

theorem step_inv (c : Cls) (s : St) (r r' : Ref) (op : Op) (I : Inv s r) (h : sem ⟨c.copyRetains, c.dtorChecks, c.assignReturns⟩ r op = some r') :
    ∃ s', step c s op = .ok s' ∧ Inv s' r' := by
  obtain ⟨hv, hn, he, hc, hf⟩ := I
  cases op with
  | dflt =>
    simp only [sem, Option.some.injEq] at h
    subst h
    refine ⟨_, rfl, ⟨by simp only [hv], hn, he, fun o => ?_, hf⟩⟩
    show s.cnt o = _
    rw [holders_append, holders_one, hc]; simp
  | adopt o ret =>
    cases ret with
    | true =>
      simp only [sem] at h
      split at h
      · rename_i hp
        injection h with h; subst h
        have hp' : 0 < s.cnt o := by rw [hc]; exact hp
        refine ⟨{ s with cnt := (fun x => if x = o then s.cnt x + 1 else s.cnt x), vars := s.vars ++ [some (some o)] }, ?_, ⟨by simp only [hv], hn, he, fun x => ?_, fun x hx => ?_⟩⟩
        · simp only [step, retain_ok s o hp', Res.bind, if_true]
        · have := hc x
          simp only [holders_append, holders_one, Option.some.injEq]
          by_cases hx : x = o
          · subst hx; simp; omega
          · simp [hx, Ne.symm hx]; omega
        · have h0 := hf x hx
          have : x ≠ o := by rintro rfl; omega
          simp [this, h0]
      · cases h
    | false =>
      simp only [sem] at h
      split at h
      · rename_i hp
        injection h with h; subst h
        refine ⟨_, rfl, ⟨by simp only [hv], hn, fun x => ?_, fun x => ?_, hf⟩⟩
        · simp only [he]
        · have := hc x
          simp only [holders_append, holders_one, Option.some.injEq]
          by_cases hx : x = o
          · subst hx; simp; omega
          · simp [hx, Ne.symm hx]; omega
      · cases h
  | create =>
    simp only [sem, Option.some.injEq] at h
    subst h
    refine ⟨_, rfl, ⟨by simp only [hv, hn], by simp only [newObj, hn], he, fun x => ?_, fun x hx => ?_⟩⟩
    · have := hc x
      simp only [newObj, holders_append, holders_one, Option.some.injEq, hn]
      by_cases hx : x = r.next
      · have h0 := hf x (by omega)
        subst hx; simp; omega
      · simp [hx, Ne.symm hx]; omega
    · have h0 := hf x (by simp only at hx; omega)
      have : x ≠ s.next := by simp only at hx; omega
      simp [newObj, this, h0]
  | copy v =>
    simp only [sem] at h
    split at h
    · rename_i hh hget
      split at h
      · rename_i hcp
        injection h with h; subst h
        rw [← hv] at hget
        cases hh with
        | none =>
          refine ⟨{ s with vars := s.vars ++ [some none] }, ?_, ⟨by simp only [hv], hn, he, fun o => ?_, hf⟩⟩
          · simp only [step, hget, hcp, if_true, retain?, Res.bind]
          · show s.cnt o = _
            rw [holders_append, holders_one, hc]; simp
        | some o =>
          have hp' : 0 < s.cnt o := by
            rw [hc]; have := holders_pos s.vars v o hget; rw [hv] at this; omega
          refine ⟨{ s with cnt := (fun x => if x = o then s.cnt x + 1 else s.cnt x), vars := s.vars ++ [some (some o)] }, ?_, ⟨by simp only [hv], hn, he, fun x => ?_, fun x hx => ?_⟩⟩
          · simp only [step, hget, hcp, if_true, retain?, retain_ok s o hp', Res.bind]
          · have := hc x
            simp only [holders_append, holders_one, Option.some.injEq]
            by_cases hx : x = o
            · subst hx; simp; omega
            · simp [hx, Ne.symm hx]; omega
          · have h0 := hf x hx
            have : x ≠ o := by rintro rfl; omega
            simp [this, h0]
      · cases h
    · cases h
  | assign v w =>
    simp only [sem] at h
    split at h
    · rename_i a b hgv hgw
      split at h
      · rename_i has
        injection h with h; subst h
        rw [← hv] at hgv hgw
        by_cases hvw : v = w
        · subst hvw
          rw [hgv] at hgw
          simp only [Option.some.injEq] at hgw
          subst hgw
          refine ⟨s, ?_, ⟨?_, hn, he, ?_, hf⟩⟩
          · simp only [step, hgv, if_true, has]
          · rw [← hv]
            apply List.ext_getElem?
            intro i
            by_cases hi : v = i
            · subst hi
              rw [List.getElem?_set_self (by have := (List.getElem?_eq_some_iff.1 hgv).1; omega), hgv]
            · rw [List.getElem?_set_ne hi]
          · intro o
            have h1 := holders_set s.vars v _ (some a) hgv o
            show s.cnt o = r.ext o + holders (r.vars.set v (some a)) o
            rw [hc, ← hv]
            omega
        · have cw : ∀ o, (s.vars.set v none)[w]? = some (some (some o)) ↔ b = some o := by
            intro o
            rw [List.getElem?_set_ne hvw, hgw]; simp
          have key : ∀ (s1 : St), s1.vars = s.vars → s1.next = s.next → (∀ o, s1.ext o = s.ext o) →
              (∀ o, s1.cnt o = r.ext o + holders (s.vars.set v none) o) →
              ∃ s', retain? { s1 with vars := s1.vars.set v (some b) } b = .ok s' ∧ Inv s' { r with vars := r.vars.set v (some b) } := by
            intro s1 e1 e2 e3 e4
            have hh : ∀ o, holders (s.vars.set v (some b)) o = holders (s.vars.set v none) o + (if b = some o then 1 else 0) := by
              intro o
              have h1 := holders_set s.vars v _ (some b) hgv o
              have h2 := holders_set s.vars v _ none hgv o
              simp only [Option.some.injEq] at h1 h2
              simp at h2
              omega
            have fr : ∀ o, r.next ≤ o → r.ext o + holders (s.vars.set v none) o = 0 := by
              intro o ho
              have h2 := holders_set s.vars v _ none hgv o
              have h3 := hf o ho
              rw [hc, ← hv] at h3
              simp at h2
              omega
            cases b with
            | none =>
              refine ⟨_, rfl, ⟨by simp only [e1, hv], by simp only [e2, hn], fun o => by simp only [e3, he], fun o => ?_, fun o ho => ?_⟩⟩
              · have := hh o
                simp only [reduceCtorEq, if_false] at this
                show s1.cnt o = r.ext o + holders (r.vars.set v (some none)) o
                rw [e4, ← hv]; omega
              · show s1.cnt o = 0
                rw [e4]; exact fr o ho
            | some o =>
              have hp : 0 < s1.cnt o := by
                rw [e4]; have := holders_pos _ w o ((cw o).2 rfl); omega
              refine ⟨_, retain_ok _ o hp, ⟨by simp only [e1, hv], by simp only [e2, hn], fun o => by simp only [e3, he], fun x => ?_, fun x hx => ?_⟩⟩
              · have := hh x
                show (if x = o then s1.cnt x + 1 else s1.cnt x) = r.ext x + holders (r.vars.set v (some (some o))) x
                rw [e4, ← hv, this]
                by_cases hxo : x = o
                · subst hxo; simp; omega
                · simp [hxo, Ne.symm hxo]
              · have h0 := fr x hx
                have : x ≠ o := by rintro rfl; rw [e4] at hp; omega
                show (if x = o then s1.cnt x + 1 else s1.cnt x) = 0
                rw [if_neg this, e4]; exact h0
          cases a with
          | none =>
            obtain ⟨s', r1, r2⟩ := key s rfl rfl (fun _ => rfl) (fun o => by
              have h2 := holders_set s.vars v _ none hgv o
              simp at h2
              rw [hc, ← hv]; omega)
            refine ⟨s', ?_, r2⟩
            simp only [step, hgv, hgw, has, if_true, if_neg hvw, release?, Res.bind]
            exact r1
          | some o =>
            have hp : 0 < s.cnt o := by
              rw [hc]; have := holders_pos s.vars v o hgv; rw [hv] at this; omega
            obtain ⟨s', r1, r2⟩ := key { s with cnt := fun x => if x = o then s.cnt x - 1 else s.cnt x } rfl rfl (fun _ => rfl) (fun x => by
              have h2 := holders_set s.vars v _ none hgv x
              simp only [Option.some.injEq] at h2
              simp only [hc, ← hv]
              have h4 := hc x
              rw [← hv] at h4
              by_cases hx : x = o
              · subst hx; simp at h2 ⊢; omega
              · simp [hx, Ne.symm hx] at h2 ⊢; omega)
            refine ⟨s', ?_, r2⟩
            simp only [step, hgv, hgw, has, if_true, if_neg hvw, release?, release_ok s o hp, Res.bind]
            exact r1
      · cases h
    · cases h
  | destroy v =>
    simp only [sem] at h
    split at h
    · rename_i hh hget
      split at h
      · cases h
      · rename_i hn0
        injection h with h; subst h
        rw [← hv] at hget
        have h2 := fun o => holders_set s.vars v _ none hget o
        cases hh with
        | none =>
          have hd : c.dtorChecks = true := by
            cases hd : c.dtorChecks
            · exact absurd ⟨rfl, hd⟩ hn0
            · rfl
          refine ⟨{ s with vars := s.vars.set v none }, ?_, ⟨by simp only [hv], hn, he, fun o => ?_, hf⟩⟩
          · simp only [step, hget, hd, if_true]
          · have := h2 o
            simp at this
            show s.cnt o = _
            rw [hc, ← hv]; simp only; omega
        | some o =>
          have hp : 0 < s.cnt o := by
            rw [hc]; have := holders_pos s.vars v o hget; rw [hv] at this; omega
          refine ⟨{ s with cnt := (fun x => if x = o then s.cnt x - 1 else s.cnt x), vars := s.vars.set v none }, ?_, ⟨by simp only [hv], hn, he, fun x => ?_, fun x hx => ?_⟩⟩
          · simp only [step, hget, release_ok s o hp, Res.bind]
          · have := h2 x
            have h4 := hc x
            rw [← hv] at h4
            simp only [Option.some.injEq] at this
            simp only [← hv]
            by_cases hx : x = o
            · subst hx; simp at this ⊢; omega
            · simp [hx, Ne.symm hx] at this ⊢; omega
          · have h0 := hf x hx
            have : x ≠ o := by rintro rfl; omega
            simp [this, h0]
    · cases h
  | use v =>
    simp only [sem] at h
    split at h
    · rename_i o hget
      injection h with h; subst h
      rw [← hv] at hget
      refine ⟨s, ?_, ⟨hv, hn, he, hc, hf⟩⟩
      have hp : 0 < s.cnt o := by
        rw [hc]; have := holders_pos s.vars v o hget; rw [hv] at this; omega
      simp only [step, hget]
      rw [if_neg (by omega)]
    · cases h
  | rawCreate =>
    simp only [sem, Option.some.injEq] at h
    subst h
    refine ⟨_, rfl, ⟨hv, by simp only [newObj, hn], fun x => by simp only [hn, he], fun x => ?_, fun x hx => ?_⟩⟩
    · have := hc x
      simp only [newObj, hn]
      by_cases hx : x = r.next
      · have h0 := hf x (by omega)
        subst hx; simp; omega
      · simp [hx]; omega
    · have h0 := hf x (by simp only at hx; omega)
      have : x ≠ s.next := by simp only at hx; omega
      simp [newObj, this, h0]
  | rawRetain o =>
    simp only [sem] at h
    split at h
    · rename_i hp
      injection h with h; subst h
      have hp' : 0 < s.cnt o := by rw [hc]; exact hp
      refine ⟨{ s with cnt := (fun x => if x = o then s.cnt x + 1 else s.cnt x), ext := (fun x => if x = o then s.ext x + 1 else s.ext x) }, ?_, ⟨hv, hn, fun x => by simp only [he], fun x => ?_, fun x hx => ?_⟩⟩
      · simp only [step, retain_ok s o hp', Res.bind]
      · have := hc x
        by_cases hx : x = o
        · subst hx; simp; omega
        · simp [hx]; omega
      · have h0 := hf x hx
        have : x ≠ o := by rintro rfl; omega
        simp [this, h0]
    · cases h
  | rawRelease o =>
    simp only [sem] at h
    split at h
    · rename_i hp
      injection h with h; subst h
      have hp' : 0 < s.cnt o := by rw [hc]; omega
      refine ⟨{ s with cnt := (fun x => if x = o then s.cnt x - 1 else s.cnt x), ext := (fun x => if x = o then s.ext x - 1 else s.ext x) }, ?_, ⟨hv, hn, fun x => by simp only [he], fun x => ?_, fun x hx => ?_⟩⟩
      · simp only [step, release_ok s o hp', Res.bind]
      · have := hc x
        by_cases hx : x = o
        · subst hx; simp; omega
        · simp [hx]; omega
      · have h0 := hf x hx
        have : x ≠ o := by rintro rfl; omega
        simp [this, h0]
    · cases h
  | report o => simp only [sem] at h; cases h

theorem run_inv (c : Cls) (l : List Op) : ∀ (s : St) (r r' : Ref), Inv s r → sems ⟨c.copyRetains, c.dtorChecks, c.assignReturns⟩ r l = some r' →
    ∃ s', run c s l = .ok s' ∧ Inv s' r' := by
  induction l with
  | nil => intro s r r' I h; simp only [sems, Option.some.injEq] at h; subst h; exact ⟨s, rfl, I⟩
  | cons op l ih =>
    intro s r r' I h
    simp only [sems] at h
    cases h1 : sem ⟨c.copyRetains, c.dtorChecks, c.assignReturns⟩ r op with
    | none => rw [h1] at h; cases h
    | some r1 =>
      rw [h1] at h
      obtain ⟨s1, e1, I1⟩ := step_inv c s r r1 op I h1
      obtain ⟨s2, e2, I2⟩ := ih s1 r1 r' I1 h
      exact ⟨s2, by simp only [run, e1, Res.bind, e2], I2⟩

theorem inv_init : Inv init Ref.init := ⟨rfl, rfl, fun _ => rfl, fun _ => rfl, fun _ _ => rfl⟩

theorem run_counts (c : Cls) (l : List Op) (r : Ref) (h : sems ⟨c.copyRetains, c.dtorChecks, c.assignReturns⟩ Ref.init l = some r) :
    ∃ s, run c init l = .ok s ∧ Counts s r := by
  obtain ⟨s, e, I⟩ := run_inv c l init Ref.init r inv_init h
  exact ⟨s, e, I.vars, I.cnt⟩

/-! ### Words -/

theorem words_blank (sp rest : List Char) (h : ∀ c ∈ sp, c.isWhitespace = true) : words (sp ++ rest) [] = words rest [] := by
  induction sp with
  | nil => rfl
  | cons c l ih =>
    simp only [List.cons_append, words, h c (by simp), if_true]
    exact ih fun d hd => h d (by simp [hd])

theorem words_word (w rest acc : List Char) (h : ∀ c ∈ w, c.isWhitespace = false) : words (w ++ rest) acc = words rest (acc ++ w) := by
  induction w generalizing acc with
  | nil => simp
  | cons c l ih =>
    simp only [List.cons_append, words, h c (by simp), Bool.false_eq_true, if_false]
    rw [ih _ fun d hd => h d (by simp [hd])]
    simp

theorem words_end (rest w : List Char) (hw : w ≠ []) (h : ∀ c, rest.head? = some c → c.isWhitespace = true) : words rest w = w :: words rest [] := by
  cases rest with
  | nil => simp [words, hw]
  | cons c l => simp [words, h c rfl, hw]

theorem words_of_splits (t : List Char) (l : List (List Char)) (h : Splits t l) : words t [] = l := by
  induction h with
  | blank t h => have := words_blank t [] h; simpa [words] using this
  | word sp w rest l h1 h2 h3 h4 _ ih =>
    rw [List.append_assoc, words_blank sp _ h1, words_word w rest [] h3, List.nil_append, words_end rest w h2 h4, ih]

theorem splits_cons (c : Char) (t : List Char) (l : List (List Char)) (hc : c.isWhitespace = true) (h : Splits t l) : Splits (c :: t) l := by
  cases h with
  | blank t h =>
    refine .blank _ fun d hd => ?_
    rcases List.mem_cons.1 hd with rfl | hd
    · exact hc
    · exact h d hd
  | word sp w rest l h1 h2 h3 h4 h5 =>
    have := Splits.word (c :: sp) w rest l (fun d hd => by
      rcases List.mem_cons.1 hd with rfl | hd
      · exact hc
      · exact h1 d hd) h2 h3 h4 h5
    simpa using this

theorem splits_words (l : List Char) : ∀ acc : List Char, (∀ c ∈ acc, c.isWhitespace = false) → Splits (acc ++ l) (words l acc) := by
  induction l with
  | nil =>
    intro acc h
    by_cases h0 : acc = []
    · subst h0; exact .blank _ (by simp)
    · have := Splits.word [] acc [] [] (by simp) h0 h (by simp) (.blank [] (by simp))
      simpa [words, h0] using this
  | cons c l ih =>
    intro acc h
    by_cases hc : c.isWhitespace = true
    · have h1 := splits_cons c l _ hc (ih [] (by simp))
      by_cases h0 : acc = []
      · subst h0; simpa [words, hc] using h1
      · have := Splits.word [] acc (c :: l) _ (by simp) h0 h (by simp [hc]) h1
        simpa [words, h0, hc] using this
    · have h1 := ih (acc ++ [c]) (fun d hd => by
        rcases List.mem_append.1 hd with hd | hd
        · exact h d hd
        · simp at hd; subst hd; simpa using hc)
      simpa [words, hc] using h1

/-! ### Access -/

/-- the copy on the host, if it is used at all, is what the block should be -/
structure Same {V : Type} (p : Pol) (a : Acc V) (m : Two V) : Prop where
  dev : a.dev = m.dev
  dir : p.direct = true → a.blk = m.blk
  tmp : p.direct = false → p.inn = true → a.tmp = m.blk
  blk : p.direct = false → p.out = false → a.blk = m.blk

theorem same_step {V : Type} (p : Pol) (a : Acc V) (m : Two V) (op : AOp V) (h : p.direct = true ∨ op.isWrite = false) (S : Same p a m) :
    Same p (accStep p a op) (twoStep p.inn p.out m op) := by
  obtain ⟨h1, h2, h3, h4⟩ := S
  obtain ⟨inn, out, direct⟩ := p
  cases op with
  | kernel g => exact ⟨by simp [accStep, twoStep, h1], h2, h3, h4⟩
  | write g =>
    rcases h with h | h
    · simp only at h; subst h
      exact ⟨h1, fun _ => by simp [accStep, twoStep, h2 rfl], by simp, by simp⟩
    · cases h
  | syncIn =>
    cases inn
    · exact ⟨h1, h2, h3, h4⟩
    · cases direct
      · exact ⟨h3 rfl rfl, h2, h3, h4⟩
      · exact ⟨h2 rfl, h2, h3, h4⟩
  | syncOut =>
    cases out
    · exact ⟨h1, h2, h3, h4⟩
    · cases direct
      · exact ⟨h1, by simp, fun _ _ => h1, by simp⟩
      · exact ⟨h1, fun _ => h1, by simp, by simp⟩

theorem same_run {V : Type} (p : Pol) (l : List (AOp V)) : ∀ (a : Acc V) (m : Two V), (p.direct = true ∨ ∀ op ∈ l, op.isWrite = false) → Same p a m →
    Same p (l.foldl (accStep p) a) (l.foldl (twoStep p.inn p.out) m) := by
  induction l with
  | nil => intro a m _ S; exact S
  | cons op l ih =>
    intro a m h S
    refine ih _ _ (h.imp id fun h o ho => h o (by simp [ho])) (same_step p a m op (h.imp id fun h => h op (by simp)) S)

theorem same_start {V : Type} (p : Pol) (b junk : V) : Same p (construct p b junk) (twoStart p.inn b junk) := by
  obtain ⟨inn, out, direct⟩ := p
  cases inn <;> cases direct <;> exact ⟨rfl, by simp [construct, syncIn, host, twoStart], by simp [construct, syncIn, host, twoStart], by simp [construct, syncIn, host, twoStart]⟩

theorem same_end {V : Type} (p : Pol) (a : Acc V) (m : Two V) (S : Same p a m) : destruct p a = twoEnd p.out m := by
  obtain ⟨h1, h2, h3, h4⟩ := S
  obtain ⟨inn, out, direct⟩ := p
  cases out <;> cases direct <;> simp [destruct, syncOut, twoEnd, h1] <;> first | exact h4 rfl rfl | exact h2 rfl

end Verif.Ocl
