import Verif.Model.Aggregate
import Verif.Spec.Aggregate
import Verif.Lemmas.Query
import Verif.Lemmas.Sort
namespace FT

/-! ### Dask -/

section dask
variable {α β γ : Type} (d : DaskAgg α β γ) (R : List α → β → Prop)

/-- The results of a list belong, one after the other, to non-empty lists of rows. -/
inductive Pieces (R : List α → β → Prop) : List α → List β → Prop
  | nil : Pieces R [] []
  | cons {r b rs bs} : r ≠ [] → R r b → Pieces R rs bs → Pieces R (r ++ rs) (b :: bs)

theorem Pieces.append {R : List α → β → Prop} {r1 r2 : List α} {b1 b2 : List β} (h1 : Pieces R r1 b1) (h2 : Pieces R r2 b2) :
    Pieces R (r1 ++ r2) (b1 ++ b2) := by
  induction h1 with
  | nil => exact h2
  | cons hr hb _ ih => rw [List.append_assoc]; exact .cons hr hb ih

theorem Pieces.empty_iff {R : List α → β → Prop} {r : List α} {b : List β} (h : Pieces R r b) : r = [] ↔ b = [] := by
  cases h with
  | nil => simp
  | cons hr => simp [hr]

variable (hc : ∀ r, r ≠ [] → R r (d.chunk r)) (ha : ∀ r bs, Pieces R r bs → r ≠ [] → R r (d.agg bs))
include hc ha

mutual
theorem DaskAgg.reduce_pieces : ∀ p : Parts α, Pieces R p.rows (d.reduce p)
  | .one r => by
    unfold DaskAgg.reduce Parts.rows
    cases r with
    | nil => exact .nil
    | cons a l =>
      have := Pieces.cons (rs := []) (bs := []) (by simp) (hc (a :: l) (by simp)) (.nil (R := R))
      simpa using this
  | .many ps => by
    unfold DaskAgg.reduce Parts.rows
    have h := DaskAgg.reduceL_pieces ps
    by_cases hb : d.reduceL ps = []
    · have hr := h.empty_iff.mpr hb
      simp only [hb, hr, List.isEmpty_nil, if_true]
      exact .nil
    · have hr : Parts.rowsL ps ≠ [] := fun e => hb (h.empty_iff.mp e)
      have : (d.reduceL ps).isEmpty = false := by simpa using hb
      simp only [this, Bool.false_eq_true, if_false]
      have := Pieces.cons (rs := []) (bs := []) hr (ha _ _ h hr) (.nil (R := R))
      simpa using this
theorem DaskAgg.reduceL_pieces : ∀ ps : List (Parts α), Pieces R (Parts.rowsL ps) (d.reduceL ps)
  | [] => by unfold DaskAgg.reduceL Parts.rowsL; exact .nil
  | p :: ps => by
    unfold DaskAgg.reduceL Parts.rowsL
    exact (DaskAgg.reduce_pieces p).append (DaskAgg.reduceL_pieces ps)
end

theorem DaskAgg.run_spec (ps : List (Parts α)) (hne : Parts.rowsL ps ≠ []) : ∃ b, R (Parts.rowsL ps) b ∧ d.run ps = d.finalize b :=
  ⟨_, ha _ _ (DaskAgg.reduceL_pieces d R hc ha ps) hne, rfl⟩

end dask

theorem pieces_flatten {α β : Type} (h : List α → β) {r : List α} {bs : List β} (hp : Pieces (fun r b => b = h r) r bs) :
    ∃ l : List (List α), bs = l.map h ∧ r = l.flatten := by
  induction hp with
  | nil => exact ⟨[], rfl, rfl⟩
  | @cons r b rs bs _ hb _ ih =>
    obtain ⟨l, h1, h2⟩ := ih
    exact ⟨r :: l, by simp [hb, h1], by simp [h2]⟩

/-- A Dask version whose parts are computed by one function compatible with concatenation. -/
theorem DaskAgg.run_eq {α β γ : Type} (d : DaskAgg α β γ) (h : List α → β) (hc : ∀ r, d.chunk r = h r)
    (ha : ∀ l : List (List α), d.agg (l.map h) = h l.flatten) (ps : List (Parts α)) (hne : Parts.rowsL ps ≠ []) :
    d.run ps = d.finalize (h (Parts.rowsL ps)) := by
  obtain ⟨b, hb, he⟩ := DaskAgg.run_spec d (fun r b => b = h r) (fun r _ => hc r)
    (by
      intro r bs hp _
      obtain ⟨l, h1, h2⟩ := pieces_flatten h hp
      rw [h1, h2, ha]) ps hne
  rw [he, hb]

theorem sum_flatten_map {α : Type} (f : List α → Rat) (h0 : f [] = 0) (h1 : ∀ a b, f (a ++ b) = f a + f b) :
    ∀ l : List (List α), (l.map f).sum = f l.flatten
  | [] => by simp [h0]
  | a :: l => by simp [h1, sum_flatten_map f h0 h1 l]

theorem sum_flatten_map_nat {α : Type} (f : List α → Nat) (h0 : f [] = 0) (h1 : ∀ a b, f (a ++ b) = f a + f b) :
    ∀ l : List (List α), (l.map f).sum = f l.flatten
  | [] => by simp [h0]
  | a :: l => by simp [h1, sum_flatten_map_nat f h0 h1 l]

theorem fillZero_sum (s : List (Option Bool)) : (fillZero s).sum = (s.count (some true) : Rat) := by
  induction s with
  | nil => simp [fillZero]
  | cons v s ih =>
    simp only [fillZero, List.map_cons, List.sum_cons, List.count_cons] at ih ⊢
    rw [ih]
    by_cases h : v = some true
    · simp [h, Rat.add_comm]
    · simp [h, Rat.zero_add]

/-! ### Times -/

theorem maxInt_spec : ∀ (l : List Int) (a : Int), maxInt a l ∈ a :: l ∧ ∀ x ∈ a :: l, x ≤ maxInt a l
  | [], a => by simp [maxInt]
  | b :: l, a => by
    have ih := maxInt_spec l (if a < b then b else a)
    have he : maxInt a (b :: l) = maxInt (if a < b then b else a) l := rfl
    rw [he]
    obtain ⟨h1, h2⟩ := ih
    have h3 := h2 (if a < b then b else a) (by simp)
    refine ⟨?_, ?_⟩
    · rcases List.mem_cons.mp h1 with h | h
      · rw [h]; split <;> simp
      · simp [h]
    · intro x hx
      rcases List.mem_cons.mp hx with rfl | hx
      · clear h1 h2; generalize maxInt _ l = m at *; split at h3 <;> omega
      · rcases List.mem_cons.mp hx with rfl | hx
        · clear h1 h2; generalize maxInt _ l = m at *; split at h3 <;> omega
        · exact h2 x (by simp [hx])

theorem minInt_spec : ∀ (l : List Int) (a : Int), minInt a l ∈ a :: l ∧ ∀ x ∈ a :: l, minInt a l ≤ x
  | [], a => by simp [minInt]
  | b :: l, a => by
    have ih := minInt_spec l (if b < a then b else a)
    have he : minInt a (b :: l) = minInt (if b < a then b else a) l := rfl
    rw [he]
    obtain ⟨h1, h2⟩ := ih
    have h3 := h2 (if b < a then b else a) (by simp)
    refine ⟨?_, ?_⟩
    · rcases List.mem_cons.mp h1 with h | h
      · rw [h]; split <;> simp
      · simp [h]
    · intro x hx
      rcases List.mem_cons.mp hx with rfl | hx
      · clear h1 h2; generalize minInt _ l = m at *; split at h3 <;> omega
      · rcases List.mem_cons.mp hx with rfl | hx
        · clear h1 h2; generalize minInt _ l = m at *; split at h3 <;> omega
        · exact h2 x (by simp [hx])

theorem gaps_sum : ∀ (l : List Int) (a b : Int), (a :: l).getLast? = some b → (Spec.gaps (a :: l)).sum = b - a
  | [], a, b, h => by simp at h; simp [Spec.gaps, h]
  | c :: l, a, b, h => by
    have := gaps_sum l c b (by simpa using h)
    simp only [Spec.gaps, List.sum_cons, this]; omega

theorem gaps_length : ∀ l : List Int, (Spec.gaps l).length = l.length - 1
  | [] => rfl
  | [_] => rfl
  | a :: b :: l => by simp [Spec.gaps, gaps_length (b :: l)]

/-! ### Trend -/

theorem sqErr_eq : ∀ (pts : List (Rat × Rat)) (a b : Rat), Spec.sqErr pts a b =
    (pts.map fun p => p.2 * p.2).sum - 2 * a * (pts.map fun p => p.2).sum - 2 * b * (pts.map fun p => p.1 * p.2).sum
      + (pts.length : Rat) * a * a + 2 * a * b * (pts.map fun p => p.1).sum + b * b * (pts.map fun p => p.1 * p.1).sum
  | [], a, b => by simp [Spec.sqErr]; grind
  | p :: ps, a, b => by
    have h := sqErr_eq ps a b
    simp only [Spec.sqErr, h, List.map_cons, List.sum_cons, List.length_cons]
    have : ((ps.length + 1 : Nat) : Rat) = (ps.length : Rat) + 1 := by simp
    rw [this]
    grind

theorem rat_sq_nonneg (x : Rat) : 0 ≤ x * x := by
  rcases (Rat.le_total : 0 ≤ x ∨ x ≤ 0) with h | h
  · exact Rat.mul_nonneg h h
  · have := Rat.mul_nonneg (a := -x) (b := -x) (by grind) (by grind)
    grind

theorem le_of_mul {n a b : Rat} (hn : 0 < n) (h : n * a ≤ n * b) : a ≤ b := by
  exact Rat.le_of_mul_le_mul_left h hn

/-- The normal equations give a line with the least squared error. -/
theorem fitSlope_least (pts : List (Rat × Rat)) (hn : pts ≠ [])
    (hD : 0 < (pts.length : Rat) * (pts.map fun p => p.1 * p.1).sum - (pts.map fun p => p.1).sum * (pts.map fun p => p.1).sum) :
    Spec.LeastSquaresSlope pts (fitSlope pts) := by
  have hn' : (0 : Rat) < pts.length := by
    have : 0 < pts.length := List.length_pos_iff.mpr hn
    exact_mod_cast this
  unfold fitSlope
  simp only []
  generalize hsx : (pts.map fun p => p.1).sum = sx at *
  generalize hsxx : (pts.map fun p => p.1 * p.1).sum = sxx at *
  generalize hsy : (pts.map fun p => p.2).sum = sy
  generalize hsxy : (pts.map fun p => p.1 * p.2).sum = sxy
  generalize hk : (pts.length : Rat) = n at *
  generalize hs : (n * sxy - sx * sy) / (n * sxx - sx * sx) = s
  have hE : n * sxy - sx * sy = s * (n * sxx - sx * sx) := by
    rw [← hs, Rat.div_mul_cancel (by grind)]
  have hc : n * ((sy - s * sx) / n) = sy - s * sx := by
    rw [Rat.mul_comm, Rat.div_mul_cancel (by grind)]
  generalize hcc : (sy - s * sx) / n = c at hc
  refine ⟨c, fun a b => ?_⟩
  rw [sqErr_eq, sqErr_eq, hsx, hsxx, hsy, hsxy, hk]
  apply le_of_mul hn'
  have h1 := rat_sq_nonneg (n * a + b * sx - sy)
  have h2 := Rat.mul_nonneg (Rat.le_of_lt hD) (rat_sq_nonneg (b - s))
  generalize (pts.map fun p => p.2 * p.2).sum = syy at *
  have e1 : ∀ a b, n * (syy - 2 * a * sy - 2 * b * sxy + n * a * a + 2 * a * b * sx + b * b * sxx)
      = (n * a + b * sx - sy) * (n * a + b * sx - sy) + (n * sxx - sx * sx) * (b * b) - 2 * b * (n * sxy - sx * sy) + n * syy - sy * sy := by
    intro a b; grind
  rw [e1, e1, hE]
  have e2 : n * c + s * sx - sy = 0 := by rw [hc]; grind
  rw [e2]
  grind

end FT
