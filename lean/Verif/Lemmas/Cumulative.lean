import Verif.Model.Cumulative
import Verif.Spec.Cumulative
namespace FT

theorem runFrom_length (op) : ∀ (acc : Option Rat) (l : NumSeries), (runFrom op acc l).length = l.length
  | _, [] => rfl
  | acc, none :: l => by simp [runFrom, runFrom_length op acc l]
  | none, some x :: l => by simp [runFrom, runFrom_length op _ l]
  | some a, some x :: l => by simp [runFrom, runFrom_length op _ l]

theorem runFrom_none (op) : ∀ (acc : Option Rat) (l : NumSeries) (i : Nat), l[i]? = some none → (runFrom op acc l)[i]? = some none
  | _, [], i, h => by simp at h
  | acc, none :: l, 0, h => by simp [runFrom]
  | acc, none :: l, i + 1, h => by simpa [runFrom] using runFrom_none op acc l i (by simpa using h)
  | none, some x :: l, 0, h => by simp at h
  | none, some x :: l, i + 1, h => by simpa [runFrom] using runFrom_none op _ l i (by simpa using h)
  | some a, some x :: l, 0, h => by simp at h
  | some a, some x :: l, i + 1, h => by simpa [runFrom] using runFrom_none op _ l i (by simpa using h)

/-- Whatever is kept by the operation holds of the running value and the values it has seen. -/
theorem runFrom_some (op) (Q : List Rat → Rat → Prop) (h0 : ∀ x, Q [x] x) (h1 : ∀ l a x, Q l a → Q (l ++ [x]) (op a x)) :
    ∀ (l : NumSeries) (acc : Option Rat) (seen : List Rat), (acc = none → seen = []) → (∀ a, acc = some a → Q seen a) →
      ∀ (i : Nat) (x : Rat), l[i]? = some (some x) →
        ∃ y, (runFrom op acc l)[i]? = some (some y) ∧ Q (seen ++ Spec.upTo l i) y := by
  intro l
  induction l with
  | nil => intro acc seen _ _ i x h; simp at h
  | cons v l ih =>
    intro acc seen hn hs i x h
    cases v with
    | none =>
      cases i with
      | zero => simp at h
      | succ i =>
        obtain ⟨y, hy, hq⟩ := ih acc seen hn hs i x (by simpa using h)
        exact ⟨y, by simpa [runFrom] using hy, by simpa [Spec.upTo] using hq⟩
    | some z =>
      have step : ∀ b, Q (seen ++ [z]) b → runFrom op acc (some z :: l) = some b :: runFrom op (some b) l →
          ∃ y, (runFrom op acc (some z :: l))[i]? = some (some y) ∧ Q (seen ++ Spec.upTo (some z :: l) i) y := by
        intro b hb he
        rw [he]
        cases i with
        | zero => exact ⟨b, by simp, by simpa [Spec.upTo] using hb⟩
        | succ i =>
          obtain ⟨y, hy, hq⟩ := ih (some b) (seen ++ [z]) (by simp) (by intro a ha; cases ha; exact hb) i x (by simpa using h)
          exact ⟨y, by simpa using hy, by simpa [Spec.upTo] using hq⟩
      cases acc with
      | none => rw [hn rfl] at step ⊢; exact step z (by simpa using h0 z) rfl
      | some a => exact step (op a z) (h1 _ _ _ (hs a rfl)) rfl

theorem runFrom_running (op) (Q : List Rat → Rat → Prop) (h0 : ∀ x, Q [x] x) (h1 : ∀ l a x, Q l a → Q (l ++ [x]) (op a x))
    (l : NumSeries) : Spec.Running (fun _ seen y => Q seen y) l (runFrom op none l) := by
  refine ⟨runFrom_length _ _ _, fun i => ⟨runFrom_none op none l i, fun x hx => ?_⟩⟩
  simpa using runFrom_some op Q h0 h1 l none [] (fun _ => rfl) (by simp) i x hx

theorem diffSeries_get (l : NumSeries) (i : Nat) :
    (diffSeries l)[i + 1]? = (l[i + 1]?).bind fun v => (l[i]?).map fun w => minusNan v w := by
  unfold diffSeries
  rw [List.getElem?_zipWith]
  simp only [List.getElem?_cons_succ]
  cases h : l[i + 1]? <;> cases h' : l[i]? <;> simp

theorem diffSeries_zero (v : Option Rat) (l : NumSeries) : (diffSeries (v :: l))[0]? = some none := by
  cases v <;> simp [diffSeries, minusNan]

theorem diffSeries_length (l : NumSeries) : (diffSeries l).length = l.length := by
  simp [diffSeries]

theorem runFrom_complete (op) : ∀ (a : Rat) (xs : List Rat), ∀ v ∈ runFrom op (some a) (xs.map some), v ≠ none
  | _, [] => by simp [runFrom]
  | a, x :: xs => by
    intro v hv
    simp only [List.map_cons, runFrom, List.mem_cons] at hv
    rcases hv with rfl | hv
    · simp
    · exact runFrom_complete op _ xs v hv

end FT
