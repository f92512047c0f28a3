import Verif.Turn.Pat
import Mathlib.Tactic.Ring
/-!
The blocks of the matrix in the buffers.
-/
namespace Verif.Turn

variable {V : Type}

/-- the elements of a block, row by row -/
def blk {α : Type} (nr nc : Nat) (f : Nat → Nat → α) : List α := (List.range nr).flatMap fun r => (List.range nc).map fun c => f r c

theorem flatMap_one {α β : Type} (f : α → β) (l : List α) : (l.flatMap fun x => [f x]) = l.map f := by
  induction l with
  | nil => rfl
  | cons x l ih => rw [List.flatMap_cons, ih]; rfl

theorem flatMap_cong {α β : Type} {f g : α → List β} : ∀ {l : List α}, (∀ x ∈ l, f x = g x) → l.flatMap f = l.flatMap g
  | [], _ => rfl
  | x :: l, h => by rw [List.flatMap_cons, List.flatMap_cons, h x (by simp), flatMap_cong fun y hy => h y (by simp [hy])]

theorem mem_blk {α : Type} {nr nc : Nat} {f : Nat → Nat → α} {x : α} : x ∈ blk nr nc f ↔ ∃ r c, r < nr ∧ c < nc ∧ x = f r c := by
  simp only [blk, List.mem_flatMap, List.mem_map, List.mem_range]
  constructor
  · rintro ⟨r, hr, c, hc, rfl⟩; exact ⟨r, c, hr, hc, rfl⟩
  · rintro ⟨r, c, hr, hc, rfl⟩; exact ⟨r, hr, c, hc, rfl⟩

theorem blk_map {α β : Type} (nr nc : Nat) (f : Nat → Nat → α) (g : α → β) : (blk nr nc f).map g = blk nr nc fun r c => g (f r c) := by
  simp only [blk, List.map_flatMap, List.map_map]
  rfl

theorem blk_congr {α : Type} {nr nc : Nat} {f g : Nat → Nat → α} (h : ∀ r c, r < nr → c < nc → f r c = g r c) : blk nr nc f = blk nr nc g := by
  apply flatMap_cong
  intro r hr
  apply List.map_congr_left
  intro c hc
  exact h r c (List.mem_range.1 hr) (List.mem_range.1 hc)

theorem blk_pairs {α : Type} (nr nc : Nat) (f : Nat → Nat → α) : blk nr nc f = (blk nr nc fun r c => (r, c)).map fun x => f x.1 x.2 := by
  rw [blk_map]

theorem blk_zip {α β : Type} (nr nc : Nat) (f : Nat → Nat → α) (g : Nat → Nat → β) :
    (blk nr nc f).zip (blk nr nc g) = blk nr nc fun r c => (f r c, g r c) := by
  rw [blk_pairs nr nc f, blk_pairs nr nc g, List.zip_map', blk_map]

theorem blk_length {α β : Type} (nr nc : Nat) (f : Nat → Nat → α) (g : Nat → Nat → β) : (blk nr nc f).length = (blk nr nc g).length := by
  rw [blk_pairs nr nc f, blk_pairs nr nc g, List.length_map, List.length_map]

theorem mapM_some {α β : Type} {f : α → Option β} {g : α → β} : ∀ {l : List α}, (∀ x ∈ l, f x = some (g x)) → l.mapM f = some (l.map g)
  | [], _ => rfl
  | x :: l, h => by
    rw [List.mapM_cons, h x (by simp), mapM_some (g := g) fun y hy => h y (by simp [hy])]
    rfl

/-! ### Places -/

theorem places_one (off : Nat) (t : DType) : places off 1 t = t.disp.map (off + ·) := by
  simp [places]

theorem places_src (off nr nc cols : Nat) : places off 1 (srcType nr nc cols) = blk nr nc fun r c => off + (r * cols + c) := by
  rw [places_one]
  exact blk_map nr nc _ _

/-- where row `r` and column `c` of the destination are -/
def dOff (col : Bool) (rows nc r c : Nat) : Nat := if col then r + c * rows else r * nc + c

theorem places_dst (col : Bool) (nr nc rows s : Nat) :
    places (dstOff col nr nc s) 1 (dstType col nr nc rows) = blk nr nc fun r c => dOff col rows nc (s * nr + r) c := by
  rw [places_one]
  cases col
  · have e : (dstType false nr nc rows).disp = blk nr nc fun r c => r * nc + c := rfl
    rw [e, blk_map]
    apply blk_congr
    intro r c _ _
    simp only [dstOff, dOff]
    show s * nr * nc + (r * nc + c) = (s * nr + r) * nc + c
    ring
  · have e : (dstType true nr nc rows).disp = blk nr nc fun r c => r + c * rows := by
      simp only [dstType, if_true, hvector, withUB, vector, blk]
      apply flatMap_cong
      intro r _
      have h1 : ((List.range nc).flatMap fun i => (List.range 1).map fun j => i * rows + j) = (List.range nc).map fun i => i * rows := by
        rw [← flatMap_one]
        rfl
      rw [h1, List.map_map]
      apply List.map_congr_left
      intro c _
      simp
    rw [e, blk_map]
    apply blk_congr
    intro r c _ _
    simp only [dstOff, dOff]
    show s * nr + (r + c * rows) = s * nr + r + c * rows
    ring

theorem places_float (off nc : Nat) : places off nc float = blk 1 nc fun _ c => off + c := by
  simp only [places, float, blk]
  have e : (fun k => List.map (fun d => off + k * 1 + d) [0]) = fun k => [off + k] := by
    funext k
    simp
  rw [e, flatMap_one]
  simp

theorem places_srcS (opt : Bool) (off nr nc cols : Nat) :
    places off (single opt nr nc (srcType nr nc cols)).1 (single opt nr nc (srcType nr nc cols)).2 = blk nr nc fun r c => off + (r * cols + c) := by
  unfold single
  split
  · next h =>
    have h1 : nr = 1 := by
      have := (Bool.and_eq_true _ _ ▸ h).2
      exact of_decide_eq_true (by simpa using this)
    subst h1
    rw [places_float]
    apply blk_congr
    intro r c hr _
    have : r = 0 := by omega
    subst this
    simp
  · exact places_src off nr nc cols

theorem places_dstS (opt : Bool) (nr nc rows s : Nat) :
    places (dstOff false nr nc s) (single opt nr nc (dstType false nr nc rows)).1 (single opt nr nc (dstType false nr nc rows)).2 =
      blk nr nc fun r c => dOff false rows nc (s * nr + r) c := by
  unfold single
  split
  · next h =>
    have h1 : nr = 1 := by
      have := (Bool.and_eq_true _ _ ▸ h).2
      exact of_decide_eq_true (by simpa using this)
    subst h1
    rw [places_float]
    apply blk_congr
    intro r c hr _
    have : r = 0 := by omega
    subst this
    simp [dstOff, dOff]
  · exact places_dst false nr nc rows s

/-- blocks at multiples of the extent are where they are for the other programs -/
theorem places_ext (col : Bool) (nr nc rows s : Nat) :
    places (s * (dstType col nr nc rows).ext) 1 (dstType col nr nc rows) = blk nr nc fun r c => dOff col rows nc (s * nr + r) c := by
  cases nr with
  | zero =>
    rw [places_one]
    cases col <;> simp [dstType, hvector, vector, blk]
  | succ k =>
    have e : s * (dstType col (k + 1) nc rows).ext = dstOff col (k + 1) nc s := by
      cases col
      · simp only [dstType, vector, dstOff]
        show s * ((k + 1 - 1) * nc + nc) = s * (k + 1) * nc
        rw [Nat.add_sub_cancel]
        ring
      · simp [dstType, hvector, withUB, dstOff]
    rw [e, places_dst]

/-! ### Values -/

/-- what must be at an offset of the destination buffer of rank `d` -/
def target (A : Nat → Nat → V) (col : Bool) (rows nc d o : Nat) : V :=
  if col then A (o % rows) (d * nc + o / rows) else A (o / nc) (d * nc + o % nc)

theorem target_dOff (A : Nat → Nat → V) (col : Bool) {rows nc r c : Nat} (d : Nat) (hr : r < rows) (hc : c < nc) :
    target A col rows nc d (dOff col rows nc r c) = A r (d * nc + c) := by
  cases col
  · simp only [target, dOff]
    show A ((r * nc + c) / nc) (d * nc + (r * nc + c) % nc) = _
    rw [Nat.add_comm (r * nc) c, Nat.add_mul_div_right _ _ (by omega), Nat.add_mul_mod_self_right, Nat.div_eq_of_lt hc, Nat.mod_eq_of_lt hc, Nat.zero_add]
  · simp only [target, dOff]
    show A ((r + c * rows) % rows) (d * nc + (r + c * rows) / rows) = _
    rw [Nat.add_mul_div_right _ _ (by omega), Nat.add_mul_mod_self_right, Nat.div_eq_of_lt hr, Nat.mod_eq_of_lt hr, Nat.zero_add]

theorem dOff_lt (col : Bool) {rows nc r c : Nat} (hr : r < rows) (hc : c < nc) : dOff col rows nc r c < rows * nc := by
  cases col
  · show r * nc + c < rows * nc
    have := Nat.mul_le_mul_right nc (show r + 1 ≤ rows by omega)
    rw [Nat.add_mul] at this
    omega
  · show r + c * rows < rows * nc
    have := Nat.mul_le_mul_left rows (show c + 1 ≤ nc by omega)
    rw [Nat.mul_add, Nat.mul_comm rows c] at this
    omega

theorem row_lt {s nr r rows : Nat} (h : s * nr + nr ≤ rows) (hr : r < nr) : s * nr + r < rows := by omega

/-- the writes of a block -/
def blkW (A : Nat → Nat → V) (col : Bool) (rows nr nc s d : Nat) : List (Nat × V) :=
  blk nr nc fun r c => (dOff col rows nc (s * nr + r) c, A (s * nr + r) (d * nc + c))

theorem blkW_right (A : Nat → Nat → V) (col : Bool) {rows nr s : Nat} (nc d : Nat) (h : s * nr + nr ≤ rows) :
    RightW (rows * nc) (target A col rows nc d) (blkW A col rows nr nc s d) := by
  intro x hx
  obtain ⟨r, c, hr, hc, rfl⟩ := mem_blk.1 hx
  exact ⟨dOff_lt col (row_lt h hr) hc, (target_dOff A col d (row_lt h hr) hc).symm⟩

theorem src_at {A : Nat → Nat → V} {nr cols s d nc : Nat} {m : List V} (hs : IsSource A nr cols s m) (hd : d * nc + nc ≤ cols) {r c : Nat} (hr : r < nr) (hc : c < nc) :
    m[d * nc + (r * cols + c)]? = some (A (s * nr + r) (d * nc + c)) := by
  have := hs.2 r (d * nc + c) hr (by omega)
  rw [← this]
  congr 1
  omega

theorem data_pack {A : Nat → Nat → V} {nr cols s d nc : Nat} {m : List V} (hs : IsSource A nr cols s m) (hd : d * nc + nc ≤ cols) {off cnt : Nat} {t : DType}
    (hp : places off cnt t = blk nr nc fun r c => d * nc + (r * cols + c)) :
    pack m off cnt t = some (blk nr nc fun r c => A (s * nr + r) (d * nc + c)) := by
  rw [pack, hp, blk_pairs, List.mapM_map, mapM_some (g := fun x => A (s * nr + x.1) (d * nc + x.2)), blk_map]
  intro x hx
  obtain ⟨r, c, hr, hc, rfl⟩ := mem_blk.1 hx
  exact src_at hs hd hr hc

/-- a message carries the right data to the right places -/
theorem data_ok {A : Nat → Nat → V} {col : Bool} {rows nr cols s d nc : Nat} {m : List V} (hs : IsSource A nr cols s m) (hd : d * nc + nc ≤ cols)
    (hr : s * nr + nr ≤ rows) {off cnt off' cnt' : Nat} {t t' : DType}
    (hp : places off cnt t = blk nr nc fun r c => d * nc + (r * cols + c))
    (hp' : places off' cnt' t' = blk nr nc fun r c => dOff col rows nc (s * nr + r) c) :
    ∃ data, pack m off cnt t = some data ∧ (places off' cnt' t').length = data.length ∧
      RightW (rows * nc) (target A col rows nc d) ((places off' cnt' t').zip data) := by
  refine ⟨_, data_pack hs hd hp, ?_, ?_⟩
  · rw [hp']; exact blk_length _ _ _ _
  · rw [hp', blk_zip]
    exact blkW_right A col nc d hr

theorem data_stores {A : Nat → Nat → V} {col : Bool} {rows nr cols s d nc : Nat} {m : List V} (hs : IsSource A nr cols s m) (hd : d * nc + nc ≤ cols)
    {off cnt off' cnt' : Nat} {t t' : DType}
    (hp : places off cnt t = blk nr nc fun r c => d * nc + (r * cols + c))
    (hp' : places off' cnt' t' = blk nr nc fun r c => dOff col rows nc (s * nr + r) c) (mem : List V) :
    (pack m off cnt t).bind (unpack mem off' cnt' t') = stores mem (blkW A col rows nr nc s d) := by
  rw [data_pack hs hd hp, Option.bind_some, unpack, if_pos (by rw [hp']; exact blk_length _ _ _ _), hp', blk_zip]
  rfl

theorem foldlM_stores {α : Type} {f : List V → α → Option (List V)} {ws : α → List (Nat × V)} : ∀ (l : List α) (m : List V),
    (∀ x ∈ l, ∀ m, f m x = stores m (ws x)) → l.foldlM f m = stores m (l.flatMap ws)
  | [], m, _ => rfl
  | x :: l, m, h => by
    rw [List.foldlM_cons, h x (by simp) m, List.flatMap_cons, stores_append]
    cases stores m (ws x) with
    | none => rfl
    | some m' => exact foldlM_stores l m' fun y hy => h y (by simp [hy])

theorem copyBlock_stores {A : Nat → Nat → V} {nr cols s sb nc : Nat} {src : List V} (hs : IsSource A nr cols s src) (hd : sb * nc + nc ≤ cols) (col : Bool)
    (rows db : Nat) (m : List V) :
    copyBlock col nr nc rows cols db sb src m = stores m (blk nr nc fun r c => (dOff col rows nc (db * nr + r) c, A (s * nr + r) (sb * nc + c))) := by
  have e := foldlM_stores (V := V) (α := Nat × Nat) (f := fun (m : List V) ic => (src[sb * nc + (ic.1 * cols + ic.2)]?).bind fun v =>
      store m (if col then db * nr + (ic.1 + ic.2 * rows) else db * nc * nr + (ic.1 * nc + ic.2)) v)
    (ws := fun x => [(dOff col rows nc (db * nr + x.1) x.2, A (s * nr + x.1) (sb * nc + x.2))]) (blk nr nc fun r c => (r, c)) m (by
      intro x hx m
      obtain ⟨r, c, hr, hc, rfl⟩ := mem_blk.1 hx
      dsimp only
      rw [src_at hs hd hr hc, Option.bind_some]
      have e : (if col = true then db * nr + (r + c * rows) else db * nc * nr + (r * nc + c)) = dOff col rows nc (db * nr + r) c := by
        cases col
        · show db * nc * nr + (r * nc + c) = (db * nr + r) * nc + c
          ring
        · show db * nr + (r + c * rows) = db * nr + r + c * rows
          ring
      rw [e]
      simp only [stores, List.foldlM_cons, List.foldlM_nil, store]
      split <;> rfl)
  rw [flatMap_one, blk_map] at e
  exact e

theorem copy_right {A : Nat → Nat → V} {nr cols nc k : Nat} {src : List V} (hs : IsSource A nr cols k src) (hd : k * nc + nc ≤ cols) (col : Bool)
    (rows : Nat) (m : List V) :
    copyBlock col nr nc rows cols k k src m = stores m (blkW A col rows nr nc k k) := copyBlock_stores hs hd col rows k m

/-- reading the destination back -/
theorem isDest_of {A : Nat → Nat → V} {col : Bool} {rows nc d : Nat} {m : List V} (hl : m.length = rows * nc)
    (h : ∀ r c, r < rows → c < nc → m[dOff col rows nc r c]? = some (target A col rows nc d (dOff col rows nc r c))) : IsDest A col rows nc d m := by
  refine ⟨hl, fun r c hr hc => ?_⟩
  have := h r c hr hc
  rw [target_dOff A col d hr hc] at this
  exact this

theorem mul_block {k n x y : Nat} (h : x * n = y) (hk : k < n) : k * x + x ≤ y := by
  have := Nat.mul_le_mul_right x (show k + 1 ≤ n by omega)
  rw [Nat.add_mul, Nat.mul_comm n x] at this
  omega

/-- every row is in the block of some sender -/
theorem row_block {rows nr n r : Nat} (h : nr * n = rows) (hr : r < rows) : r / nr < n ∧ r / nr * nr + r % nr = r ∧ r % nr < nr := by
  have hp : 0 < nr := by
    rcases Nat.eq_zero_or_pos nr with h0 | h0
    · subst h0; omega
    · exact h0
  refine ⟨?_, ?_, Nat.mod_lt _ hp⟩
  · rw [Nat.div_lt_iff_lt_mul hp, Nat.mul_comm]; omega
  · rw [Nat.mul_comm]; exact Nat.div_add_mod r nr

end Verif.Turn
