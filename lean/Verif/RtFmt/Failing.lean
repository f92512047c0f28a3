import Verif.RtFmt.Lemmas
/-! The same when allocations may fail. -/
namespace Verif.Rtf
open Function

theorem alloc_cases (h : Heap) (n : Nat) :
    (∃ h', h.alloc n = (h', none) ∧ h'.live = h.live ∧ h'.next = h.next) ∨
    (∃ h', h.alloc n = (h', some h.next) ∧ h'.live = update h.live h.next (some n) ∧ h'.next = h.next + n + 1) := by
  obtain ⟨live, next, plan⟩ := h
  cases plan with
  | nil => exact Or.inr ⟨_, rfl, rfl, rfl⟩
  | cons b l =>
    cases b with
    | false => exact Or.inl ⟨_, rfl, rfl, rfl⟩
    | true => exact Or.inr ⟨_, rfl, rfl, rfl⟩

/-- what an owner may hold after failures: nothing, all of it, or the first of two arrays -/
def Held (base live : Live) (f : Fmt) (n : Nat) (a b : Word) : Prop :=
  (a = .null ∧ (f = .split → b = .null) ∧ live = base) ∨
  (f = .split ∧ ∃ p, a = .at p ∧ b = .null ∧ base p = none ∧ live = update base p (some n)) ∨
  Backed base live f n a b

structure InvF (chk rt : Bool) (f : Fmt) (base : Live) (w : World) : Prop where
  cls : w.s.rt = rt
  fmt : w.s.fmt = f
  sane : rt = true → chk = false ∧ f ≠ .split
  ok : w.h.Ok
  free : ∀ p, w.h.next ≤ p → base p = none
  given : w.s.own = false → w.h.live = base
  owned : w.s.own = true → Held base w.h.live f w.s.size w.s.data.a w.s.data.b

structure BareF (chk rt : Bool) (f : Fmt) (base : Live) (w : World) : Prop where
  cls : w.s.rt = rt
  fmt : w.s.fmt = f
  sane : rt = true → chk = false ∧ f ≠ .split
  ok : w.h.Ok
  live : w.h.live = base
  data : w.s.data = nullData w.s.rt w.s.fmt

theorem held_null (base : Live) (rt : Bool) (f : Fmt) (n : Nat) (h : rt = true → f ≠ .split) :
    Held base base f n (nullData rt f).a (nullData rt f).b := by
  refine Or.inl ⟨?_, fun e => ?_, rfl⟩
  · cases rt <;> rfl
  · cases rt with
    | true => exact absurd e (h rfl)
    | false => rfl

theorem ok_update {h h' : Heap} {n : Nat} (hh : h.Ok) (hl : h'.live = update h.live h.next (some n)) (hn : h'.next = h.next + n + 1) :
    h'.Ok := by
  intro p hp
  rw [hl, update_of_ne (by omega)]
  exact hh p (by omega)

/-- the outcome of an allocation by an owner without memory -/
theorem allocate_bareF {chk rt : Bool} {f : Fmt} {base : Live} {w : World} (hf : f ≠ .any) (hw : BareF chk rt f base w)
    (ho : rt = false → w.s.own = true) :
    ∃ w', (allocate chk w = .ok w' ∨ allocate chk w = .thrown w') ∧ w'.s.own = w.s.own ∧
      InvF chk rt f base ⟨w'.h, { w'.s with own := true }⟩ ∧
      (rt = true → allocate chk w = .thrown w' → w'.h.live = base) := by
  obtain ⟨h, ⟨rt', f', n, own, data⟩⟩ := w
  obtain ⟨h1, h2, h3, h4, h5, h6⟩ := hw
  simp only at h1 h2 h4 h5 h6 ho ⊢
  subst h1 h2 h5 h6
  have hn : h.live h.next = none := h4 _ (Nat.le_refl _)
  by_cases hs : f' = .split
  · subst hs
    have hr : rt' = false := by
      cases rt' with
      | true => exact absurd rfl (h3 rfl).2
      | false => rfl
    subst hr
    have e := ho rfl
    subst e
    rcases alloc_cases h n with ⟨h', ha, hl, hx⟩ | ⟨h', ha, hl, hx⟩
    · refine ⟨⟨h', ⟨false, .split, n, true, nullData false .split⟩⟩, Or.inr ?_, rfl, ⟨rfl, rfl, h3, ?_, ?_, fun h => (by cases h), fun _ => ?_⟩,
        fun h => (by cases h)⟩
      · simp [allocate, allocateFix, nullData, Pt.bool, ha]
      · intro p hp; rw [hl]; exact h4 p (by rw [← hx]; exact hp)
      · intro p hp; exact h4 p (by rw [← hx]; exact hp)
      · simp only; rw [hl]; exact held_null _ false _ _ (fun h => by cases h)
    · have hok := ok_update h4 hl hx
      rcases alloc_cases h' n with ⟨h'', hb, hl', hx'⟩ | ⟨h'', hb, hl', hx'⟩
      · refine ⟨⟨h'', ⟨false, .split, n, true, ⟨.split, .at h.next, .null⟩⟩⟩, Or.inr ?_, rfl,
          ⟨rfl, rfl, h3, ?_, ?_, fun h => (by cases h), fun _ => ?_⟩, fun h => (by cases h)⟩
        · simp [allocate, allocateFix, nullData, Pt.bool, ha, hb]
        · intro p hp; rw [hl']; exact hok p (by rw [← hx']; exact hp)
        · intro p hp; exact h4 p (by simp only at hp; omega)
        · exact Or.inr (Or.inl ⟨rfl, h.next, rfl, rfl, hn, by simp only; rw [hl', hl]⟩)
      · refine ⟨⟨h'', ⟨false, .split, n, true, ⟨.split, .at h.next, .at h'.next⟩⟩⟩, Or.inl ?_, rfl,
          ⟨rfl, rfl, h3, ok_update hok hl' hx', ?_, fun h => (by cases h), fun _ => ?_⟩, fun h => (by cases h)⟩
        · simp [allocate, allocateFix, nullData, Pt.bool, ha, hb]
        · intro p hp; exact h4 p (by simp only at hp; omega)
        · exact Or.inr (Or.inr ⟨h.next, h'.next, rfl, rfl, by omega, hn, h4 _ (by omega), by simp only; rw [hl', hl]⟩)
  · have hbk : ∀ (live : Live) (b : Word), live = update h.live h.next (some (2 * n)) → Backed h.live live f' n (.at h.next) b := by
      intro live b e
      cases f' with
      | any => exact absurd rfl hf
      | split => exact absurd rfl hs
      | array => exact ⟨_, rfl, hn, e⟩
      | inter => exact ⟨_, rfl, hn, e⟩
    rcases alloc_cases h (2 * n) with ⟨h', ha, hl, hx⟩ | ⟨h', ha, hl, hx⟩
    · refine ⟨⟨h', ⟨rt', f', n, own, nullData rt' f'⟩⟩, Or.inr ?_, rfl, ⟨rfl, rfl, h3, ?_, ?_, fun h => (by cases h), fun _ => ?_⟩,
        fun _ _ => hl⟩
      · cases rt' with
        | true => cases f' <;> first | exact absurd rfl hf | exact absurd rfl hs | simp [allocate, allocateRt, ha]
        | false =>
          have e := ho rfl
          subst e
          simp [allocate, allocateFix, nullData, Pt.bool, ha, hs]
      · intro p hp; rw [hl]; exact h4 p (by rw [← hx]; exact hp)
      · intro p hp; exact h4 p (by rw [← hx]; exact hp)
      · simp only; rw [hl]; exact held_null _ rt' _ _ (fun _ => hs)
    · have hok := ok_update h4 hl hx
      refine ⟨⟨h', ⟨rt', f', n, own, ⟨f', .at h.next, if rt' then .junk else .null⟩⟩⟩, Or.inl ?_, rfl,
        ⟨rfl, rfl, h3, hok, ?_, fun h => (by cases h), fun _ => ?_⟩, fun hr ht => ?_⟩
      · cases rt' with
        | true => cases f' <;> first | exact absurd rfl hf | exact absurd rfl hs | simp [allocate, allocateRt, ha]
        | false =>
          have e := ho rfl
          subst e
          simp [allocate, allocateFix, nullData, Pt.bool, ha, hs]
      · intro p hp; exact h4 p (by simp only at hp; omega)
      · exact Or.inr (Or.inr (hbk _ _ hl))
      · exfalso
        subst hr
        cases f' <;> first | exact absurd rfl hf | exact absurd rfl hs | simp [allocate, allocateRt, ha] at ht

theorem deallocate_held {chk rt : Bool} {f : Fmt} {base : Live} {w : World} (hf : f ≠ .any) (hw : InvF chk rt f base w)
    (ho : w.s.own = true) :
    deallocate chk w = .ok ⟨{ w.h with live := base }, { w.s with data := nullData rt f }⟩ := by
  obtain ⟨h, ⟨rt', f', n, own, ⟨df, a, b⟩⟩⟩ := w
  obtain ⟨h1, h2, h3, h4, h5, h6, h7⟩ := hw
  simp only at h1 h2 h7 ho ⊢
  subst h1 h2 ho
  have hb := h7 rfl
  obtain ⟨live, next, plan⟩ := h
  simp only at hb ⊢
  by_cases hs : f' = .split
  · subst hs
    have hr : rt' = false := by
      cases rt' with
      | true => exact absurd rfl (h3 rfl).2
      | false => rfl
    subst hr
    rcases hb with ⟨rfl, hb, rfl⟩ | ⟨-, p, rfl, rfl, hp, e⟩ | ⟨p, q, rfl, rfl, hpq, hp, hq, e⟩
    · rw [hb rfl]
      simp [deallocate, asWanted, Heap.free_null]
    · have e1 : live p = some n := by rw [e, update_self]
      have e2 : update live p none = base := by rw [e]; exact update_none _ hp
      simp [deallocate, asWanted, Heap.free_null, unit, Heap.free, e1, e2]
    · have e1 : live q = some n := by rw [e, update_self]
      have e2 : update live q none = update base p (some n) := by
        rw [e]; exact update_none _ (by rw [update_of_ne (Ne.symm hpq)]; exact hq)
      have e3 : update (update base p (some n)) p none = base := update_none _ hp
      simp only [update_idem] at e3
      simp [deallocate, asWanted, unit, Heap.free, e1, e2, e3]
  · have hw : asWanted chk ⟨rt', f', n, true, ⟨df, a, b⟩⟩ = .ok (a, .null) := by
      cases rt' with
      | true =>
        obtain ⟨hc, -⟩ := h3 rfl
        subst hc
        cases f' <;> first | exact absurd rfl hf | exact absurd rfl hs | simp [asWanted, Pt.asOne, need, Out.map]
      | false => simp [asWanted, hs]
    have hcase : (a = .null ∧ live = base) ∨ ∃ p, a = .at p ∧ base p = none ∧ live = update base p (some (2 * n)) := by
      rcases hb with ⟨ha, -, hl⟩ | ⟨e, -⟩ | hb
      · exact Or.inl ⟨ha, hl⟩
      · exact absurd e hs
      · cases f' with
        | any => exact hb.elim
        | split => exact absurd rfl hs
        | array => exact Or.inr hb
        | inter => exact Or.inr hb
    unfold deallocate
    simp only
    rw [hw]
    simp only [Heap.free_null, unit, if_neg hs]
    rcases hcase with ⟨rfl, rfl⟩ | ⟨p, rfl, hp, e⟩
    · rfl
    · have e1 : live p = some (2 * n) := by rw [e, update_self]
      have e2 : update live p none = base := by rw [e]; exact update_none _ hp
      simp [Heap.free, e1, e2]

theorem InvF.bare {chk rt : Bool} {f : Fmt} {base : Live} {w : World} (hw : InvF chk rt f base w) :
    BareF chk rt f base ⟨{ w.h with live := base }, { w.s with data := nullData rt f }⟩ :=
  ⟨hw.cls, hw.fmt, hw.sane, fun p hp => hw.free p hp, rfl, by simp only [hw.cls, hw.fmt]⟩

theorem own_eta (w : World) (h : w.s.own = true) : (⟨w.h, { w.s with own := true }⟩ : World) = w := by
  obtain ⟨h', ⟨r, f', n', o, d⟩⟩ := w
  simp only at h; subst h; rfl

theorem renew_bareF {chk rt : Bool} {f : Fmt} {base : Live} {w : World} (n : Nat) (hf : f ≠ .any) (hw : BareF chk rt f base w) :
    ∃ w', (renew chk n w = .ok w' ∨ renew chk n w = .thrown w') ∧ InvF chk rt f base w' := by
  unfold renew
  rw [hw.cls]
  cases rt with
  | true =>
    obtain ⟨w', e, ho, hi, hl⟩ := allocate_bareF (w := ⟨w.h, { w.s with size := n }⟩) hf
      ⟨hw.cls, hw.fmt, hw.sane, hw.ok, hw.live, hw.data⟩ (fun h => by cases h)
    rw [if_pos rfl]
    rcases e with e | e
    · rw [e]; exact ⟨_, Or.inl rfl, hi⟩
    · have hl := hl rfl e
      rw [e]
      refine ⟨w', Or.inr rfl, ?_⟩
      by_cases hw' : w'.s.own = true
      · rw [own_eta w' hw'] at hi; exact hi
      · exact ⟨hi.cls, hi.fmt, hi.sane, hi.ok, hi.free, fun _ => hl, fun h => absurd h hw'⟩
  | false =>
    obtain ⟨w', e, ho, hi, -⟩ := allocate_bareF (w := ⟨w.h, { w.s with size := n, own := true }⟩) hf
      ⟨hw.cls, hw.fmt, hw.sane, hw.ok, hw.live, hw.data⟩ (fun _ => rfl)
    rw [if_neg (by simp)]
    rw [own_eta w' ho] at hi
    exact ⟨w', e, hi⟩

theorem resize_invF {chk rt : Bool} {f : Fmt} {base : Live} {w : World} (n : Nat) (hf : f ≠ .any) (hw : InvF chk rt f base w) :
    ∃ w', (resize chk n w = .ok w' ∨ resize chk n w = .thrown w') ∧ InvF chk rt f base w' := by
  unfold resize
  by_cases ho : w.s.own = true
  · rw [if_pos ho]
    by_cases hn : w.s.size = n
    · rw [if_pos hn]; exact ⟨w, Or.inl rfl, hw⟩
    · rw [if_neg hn, deallocate_held hf hw ho]
      exact renew_bareF n hf hw.bare
  · rw [if_neg ho, hw.cls, hw.fmt]
    have e : w.h.live = base := hw.given (by simpa using ho)
    exact renew_bareF n hf ⟨hw.cls, hw.fmt, hw.sane, hw.ok, e, by simp only [hw.cls, hw.fmt]⟩

theorem op_invF {chk rt : Bool} {f : Fmt} {base : Live} {w : World} (o : Op) (hf : f ≠ .any) (hw : InvF chk rt f base w) :
    ∃ w', (o.run chk w = .ok w' ∨ o.run chk w = .thrown w') ∧ InvF chk rt f base w' := by
  cases o with
  | resize n => exact resize_invF n hf hw
  | resizeBuf n p =>
    show ∃ w', (resizeBuf chk n p w = .ok w' ∨ resizeBuf chk n p w = .thrown w') ∧ _
    unfold resizeBuf
    by_cases hp : p.bool = true
    · rw [if_pos hp]
      by_cases ho : w.s.own = true
      · rw [if_pos ho, deallocate_held hf hw ho]
        exact ⟨_, Or.inl rfl, ⟨hw.cls, hw.fmt, hw.sane, fun p hp => hw.free p hp, hw.free, fun _ => rfl, fun h => by cases h⟩⟩
      · rw [if_neg ho]
        have e : w.h.live = base := hw.given (by simpa using ho)
        exact ⟨_, Or.inl rfl, ⟨hw.cls, hw.fmt, hw.sane, hw.ok, hw.free, fun _ => e, fun h => by cases h⟩⟩
    · rw [if_neg hp]; exact resize_invF n hf hw

theorem runCatching_invF {chk rt : Bool} {f : Fmt} {base : Live} (hf : f ≠ .any) (l : List Op) :
    ∀ w : World, InvF chk rt f base w → ∃ w', runCatching chk l w = .ok w' ∧ InvF chk rt f base w' := by
  induction l with
  | nil => intro w hw; exact ⟨w, rfl, hw⟩
  | cons o l ih =>
    intro w hw
    obtain ⟨w', e, hi⟩ := op_invF o hf hw
    obtain ⟨w'', e', hi'⟩ := ih w' hi
    refine ⟨w'', ?_, hi'⟩
    rcases e with e | e <;> (unfold runCatching; rw [e]; exact e')

end Verif.Rtf
