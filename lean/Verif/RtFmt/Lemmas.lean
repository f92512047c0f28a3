import Verif.RtFmt.Model
import Mathlib.Tactic.Basic
/-! Steps of the storage classes and what they keep. -/
namespace Verif.Rtf
open Function

/-- nothing is in use from `next` on -/
def Heap.Ok (h : Heap) : Prop := ∀ p, h.next ≤ p → h.live p = none

theorem Heap.free_null (h : Heap) (n : Nat) : h.free .null n = some h := rfl

theorem update_none {l : Live} {p : Nat} (x : Option Nat) (hp : l p = none) : update (update l p x) p none = l := by
  rw [update_idem]
  funext a
  by_cases h : a = p
  · subst h; rw [update_self, hp]
  · rw [update_of_ne h]

theorem alloc_nil {h : Heap} (n : Nat) (e : h.plan = []) :
    h.alloc n = (⟨update h.live h.next (some n), h.next + n + 1, []⟩, some h.next) := by
  unfold Heap.alloc; rw [e]; rfl

/-- what holds between operations: `base` is what was in use before the object came -/
structure Inv (rt : Bool) (f : Fmt) (base : Live) (w : World) : Prop where
  rt : w.s.rt = rt
  fmt : w.s.fmt = f
  ok : w.h.Ok
  plan : w.h.plan = []
  free : ∀ p, w.h.next ≤ p → base p = none
  given : w.s.own = false → w.h.live = base
  owned : w.s.own = true → w.s.data.fmt = f ∧ Backed base w.h.live f w.s.size w.s.data.a w.s.data.b

/-- the same without the object's memory -/
structure Bare (rt : Bool) (f : Fmt) (base : Live) (w : World) : Prop where
  rt : w.s.rt = rt
  fmt : w.s.fmt = f
  ok : w.h.Ok
  plan : w.h.plan = []
  free : ∀ p, w.h.next ≤ p → base p = none
  live : w.h.live = base
  data : w.s.data = nullData w.s.rt w.s.fmt

theorem allocate_bare {chk rt : Bool} {f : Fmt} {base : Live} {w : World} (hf : f ≠ .any) (hw : Bare rt f base w)
    (ho : rt = false → w.s.own = true) :
    ∃ w', allocate chk w = .ok w' ∧ w'.s.size = w.s.size ∧ w'.s.own = w.s.own ∧
      ∀ o, Inv rt f base ⟨w'.h, { w'.s with own := o }⟩ ∨ o = false := by
  obtain ⟨⟨live, next, plan⟩, ⟨rt', f', n, own, data⟩⟩ := w
  obtain ⟨h1, h2, h3, h4, h5, h6, h7⟩ := hw
  simp only at h1 h2 h4 h6 h7 ho ⊢
  subst h1 h2 h4 h6 h7
  have hn := h3 next (Nat.le_refl _)
  simp only at hn
  have key : ∀ (p : Nat) (k : Nat), p ≥ next + k + 1 → update live next (some k) p = none := by
    intro p k hp
    rw [update_of_ne (by omega)]; exact h3 p (by simp only; omega)
  cases rt' with
  | true =>
    cases f' with
    | any => exact absurd rfl hf
    | array =>
      refine ⟨_, rfl, rfl, rfl, fun o => ?_⟩
      cases o with
      | false => exact Or.inr rfl
      | true => exact Or.inl ⟨rfl, rfl, fun p hp => key p _ hp, rfl, fun p hp => h3 p (by simp only at hp ⊢; omega), fun h => (by cases h),
          fun _ => ⟨rfl, next, rfl, hn, rfl⟩⟩
    | inter =>
      refine ⟨_, rfl, rfl, rfl, fun o => ?_⟩
      cases o with
      | false => exact Or.inr rfl
      | true => exact Or.inl ⟨rfl, rfl, fun p hp => key p _ hp, rfl, fun p hp => h3 p (by simp only at hp ⊢; omega), fun h => (by cases h),
          fun _ => ⟨rfl, next, rfl, hn, rfl⟩⟩
    | split =>
      refine ⟨_, rfl, rfl, rfl, fun o => ?_⟩
      cases o with
      | false => exact Or.inr rfl
      | true =>
        refine Or.inl ⟨rfl, rfl, fun p hp => ?_, rfl, fun p hp => h3 p (by simp only at hp ⊢; omega), fun h => (by cases h),
          fun _ => ⟨rfl, next, next + n + 1, rfl, rfl, by omega, hn, h3 _ (by simp only; omega), rfl⟩⟩
        have hp' : next + n + 1 + n + 1 ≤ p := hp
        show update (update live next (some n)) (next + n + 1) (some n) p = none
        rw [update_of_ne (by omega)]; exact key p n (by omega)
  | false =>
    have e := ho rfl
    subst e
    cases f' with
    | any => exact absurd rfl hf
    | array =>
      refine ⟨⟨⟨update live next (some (2 * n)), next + 2 * n + 1, []⟩, ⟨false, .array, n, true, ⟨.array, .at next, .null⟩⟩⟩, rfl, rfl, rfl, fun o => ?_⟩
      cases o with
      | false => exact Or.inr rfl
      | true => exact Or.inl ⟨rfl, rfl, fun p hp => key p _ hp, rfl, fun p hp => h3 p (by simp only at hp ⊢; omega), fun h => (by cases h),
          fun _ => ⟨rfl, next, rfl, hn, rfl⟩⟩
    | inter =>
      refine ⟨⟨⟨update live next (some (2 * n)), next + 2 * n + 1, []⟩, ⟨false, .inter, n, true, ⟨.inter, .at next, .null⟩⟩⟩, rfl, rfl, rfl, fun o => ?_⟩
      cases o with
      | false => exact Or.inr rfl
      | true => exact Or.inl ⟨rfl, rfl, fun p hp => key p _ hp, rfl, fun p hp => h3 p (by simp only at hp ⊢; omega), fun h => (by cases h),
          fun _ => ⟨rfl, next, rfl, hn, rfl⟩⟩
    | split =>
      refine ⟨⟨⟨update (update live next (some n)) (next + n + 1) (some n), next + n + 1 + n + 1, []⟩,
        ⟨false, .split, n, true, ⟨.split, .at next, .at (next + n + 1)⟩⟩⟩, rfl, rfl, rfl, fun o => ?_⟩
      cases o with
      | false => exact Or.inr rfl
      | true =>
        refine Or.inl ⟨rfl, rfl, fun p hp => ?_, rfl, fun p hp => h3 p (by simp only at hp ⊢; omega), fun h => (by cases h),
          fun _ => ⟨rfl, next, next + n + 1, rfl, rfl, by omega, hn, h3 _ (by simp only; omega), rfl⟩⟩
        have hp' : next + n + 1 + n + 1 ≤ p := hp
        show update (update live next (some n)) (next + n + 1) (some n) p = none
        rw [update_of_ne (by omega)]; exact key p n (by omega)

theorem free_at {h : Heap} {p n : Nat} (e : h.live p = some n) :
    h.free (.at p) n = some { h with live := update h.live p none } := by
  unfold Heap.free; simp only; rw [if_pos e]

theorem free_two {base : Live} {p q n : Nat} {h : Heap} (hpq : p ≠ q) (hp : base p = none) (hq : base q = none)
    (e : h.live = update (update base p (some n)) q (some n)) :
    (h.free (.at q) n).bind (fun h => h.free (.at p) n) = some { h with live := base } := by
  have h1 : h.live q = some n := by rw [e, update_self]
  rw [free_at h1]
  have h2 : update h.live q none = update base p (some n) := by
    rw [e]; exact update_none _ (by rw [update_of_ne (Ne.symm hpq)]; exact hq)
  simp only [Option.bind]
  rw [h2, free_at (by simp only; rw [update_self])]
  simp only
  rw [update_none _ hp]

theorem deallocate_owned {chk rt : Bool} {f : Fmt} {base : Live} {w : World} (hw : Inv rt f base w) (ho : w.s.own = true) :
    deallocate chk w = .ok ⟨{ w.h with live := base }, { w.s with data := nullData rt f }⟩ := by
  obtain ⟨h, ⟨rt', f', n, own, ⟨df, a, b⟩⟩⟩ := w
  obtain ⟨h1, h2, h3, h4, h5, h6, h7⟩ := hw
  simp only at h1 h2 h7 ho ⊢
  subst h1 h2 ho
  obtain ⟨hd, hb⟩ := h7 rfl
  subst hd
  cases df with
  | any => exact hb.elim
  | array =>
    obtain ⟨p, rfl, hp, e⟩ := hb
    have h1 : h.live p = some (2 * n) := by rw [e, update_self]
    have h2 : update h.live p none = base := by rw [e]; exact update_none _ hp
    cases rt' <;> cases chk <;>
      simp [deallocate, asWanted, Pt.asOne, need, Out.map, Heap.free_null, unit, free_at h1, h2]
  | inter =>
    obtain ⟨p, rfl, hp, e⟩ := hb
    have h1 : h.live p = some (2 * n) := by rw [e, update_self]
    have h2 : update h.live p none = base := by rw [e]; exact update_none _ hp
    cases rt' <;> cases chk <;>
      simp [deallocate, asWanted, Pt.asOne, need, Out.map, Heap.free_null, unit, free_at h1, h2]
  | split =>
    obtain ⟨p, q, rfl, rfl, hpq, hp, hq, e⟩ := hb
    have h1 : h.live q = some n := by rw [e, update_self]
    have h2 : update h.live q none = update base p (some n) := by
      rw [e]; exact update_none _ (by rw [update_of_ne (Ne.symm hpq)]; exact hq)
    have h3' : (⟨update base p (some n), h.next, h.plan⟩ : Heap).free (.at p) n = some ⟨base, h.next, h.plan⟩ := by
      rw [free_at (by simp only; rw [update_self])]
      simp only
      rw [update_none _ hp]
    cases rt' <;> cases chk <;>
      simp [deallocate, asWanted, Pt.asPair, need, unit, free_at h1, h2, h3']

theorem Inv.bare {rt : Bool} {f : Fmt} {base : Live} {w : World} (hw : Inv rt f base w) :
    Bare rt f base ⟨{ w.h with live := base }, { w.s with data := nullData rt f }⟩ :=
  ⟨hw.rt, hw.fmt, fun p hp => hw.free p hp, hw.plan, hw.free, rfl, by simp only [hw.rt, hw.fmt]⟩

theorem renew_bare {chk rt : Bool} {f : Fmt} {base : Live} {w : World} (n : Nat) (hf : f ≠ .any) (hw : Bare rt f base w) :
    ∃ w', renew chk n w = .ok w' ∧ Inv rt f base w' ∧ w'.s.size = n ∧ w'.s.own = true := by
  unfold renew
  rw [hw.rt]
  cases rt with
  | true =>
    obtain ⟨w', e, hs, -, hi⟩ := allocate_bare (chk := chk) (w := ⟨w.h, { w.s with size := n }⟩) hf
      ⟨hw.rt, hw.fmt, hw.ok, hw.plan, hw.free, hw.live, hw.data⟩ (fun h => by cases h)
    rw [if_pos rfl, e]
    rcases hi true with h | h
    · exact ⟨_, rfl, h, hs, rfl⟩
    · cases h
  | false =>
    obtain ⟨w', e, hs, ho, hi⟩ := allocate_bare (chk := chk) (w := ⟨w.h, { w.s with size := n, own := true }⟩) hf
      ⟨hw.rt, hw.fmt, hw.ok, hw.plan, hw.free, hw.live, hw.data⟩ (fun _ => rfl)
    rw [if_neg (by simp), e]
    rcases hi true with h | h
    · refine ⟨w', rfl, ?_, hs, ho⟩
      have : (⟨w'.h, { w'.s with own := true }⟩ : World) = w' := by
        obtain ⟨h', ⟨r, f', n', o, d⟩⟩ := w'
        simp only at ho; subst ho; rfl
      rwa [this] at h
    · cases h

theorem resize_inv {chk rt : Bool} {f : Fmt} {base : Live} {w : World} (n : Nat) (hf : f ≠ .any) (hw : Inv rt f base w) :
    ∃ w', resize chk n w = .ok w' ∧ Inv rt f base w' ∧ w'.s.size = n ∧ w'.s.own = true := by
  unfold resize
  by_cases ho : w.s.own = true
  · rw [if_pos ho]
    by_cases hn : w.s.size = n
    · rw [if_pos hn]; exact ⟨w, rfl, hw, hn, ho⟩
    · rw [if_neg hn, deallocate_owned hw ho]
      exact renew_bare n hf hw.bare
  · rw [if_neg ho, hw.rt, hw.fmt]
    have e : w.h.live = base := hw.given (by simpa using ho)
    exact renew_bare n hf ⟨hw.rt, hw.fmt, hw.ok, hw.plan, hw.free, e, by simp only [hw.rt, hw.fmt]⟩

theorem resizeBuf_inv {chk rt : Bool} {f : Fmt} {base : Live} {w : World} (n : Nat) (p : Pt) (hp : p.bool = true) (hw : Inv rt f base w) :
    ∃ w', resizeBuf chk n p w = .ok w' ∧ Inv rt f base w' ∧ w'.s.size = n ∧ w'.s.own = false ∧ w'.s.data = p := by
  unfold resizeBuf
  rw [if_pos hp]
  by_cases ho : w.s.own = true
  · rw [if_pos ho, deallocate_owned hw ho]
    exact ⟨_, rfl, ⟨hw.rt, hw.fmt, fun p hp => hw.free p hp, hw.plan, hw.free, fun _ => rfl, fun h => by cases h⟩, rfl, rfl, rfl⟩
  · rw [if_neg ho]
    have e : w.h.live = base := hw.given (by simpa using ho)
    exact ⟨_, rfl, ⟨hw.rt, hw.fmt, hw.ok, hw.plan, hw.free, fun _ => e, fun h => by cases h⟩, rfl, rfl, rfl⟩

end Verif.Rtf
