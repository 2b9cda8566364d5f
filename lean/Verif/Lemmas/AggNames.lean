import Verif.Spec.AggNames
import Verif.Lemmas.Util
import Verif.Lemmas.MakePrim
/-! # Aggregations in one pass: lemmas -/
namespace FT
open Spec

theorem append_dash_inj {a b c d : List Char} (hb : '-' ∉ b) (hd : '-' ∉ d) (h : a ++ '-' :: b = c ++ '-' :: d) : a = c ∧ b = d := by
  rcases List.append_eq_append_iff.mp h with ⟨t, h1, h2⟩ | ⟨t, h1, h2⟩
  · cases t with
    | nil => simp at h1 h2; exact ⟨h1.symm, h2⟩
    | cons x t =>
      rw [List.cons_append] at h2
      cases h2
      exact absurd (by simp) hb
  · cases t with
    | nil => simp at h1 h2; exact ⟨h1, h2.symm⟩
    | cons x t =>
      rw [List.cons_append] at h2
      cases h2
      exact absurd (by simp) hd

theorem dash_funcname (p : Passed) : '-' ∉ p.funcname.toList := by
  cases p with
  | count => decide
  | object id n =>
    intro h
    have := repr_digits id '-' (by simpa [Passed.funcname, Nat.toString_eq_repr] using h)
    exact absurd this.1 (by decide)

theorem aggKey_inj {v w : String} {p q : Passed} (h : aggKey v p.funcname = aggKey w q.funcname) : v = w ∧ p.funcname = q.funcname := by
  unfold aggKey at h
  have h := congrArg String.toList h
  simp only [String.toList_append] at h
  have e : "-".toList = ['-'] := rfl
  rw [e, List.append_assoc, List.append_assoc] at h
  obtain ⟨h1, h2⟩ := append_dash_inj (dash_funcname p) (dash_funcname q) h
  exact ⟨String.toList_inj.mp h1, String.toList_inj.mp h2⟩

theorem toString_nat_inj {a b : Nat} (h : toString a = toString b) : a = b := by
  rw [Nat.toString_eq_repr, Nat.toString_eq_repr] at h
  rw [← digitsVal_repr a, ← digitsVal_repr b, h]

theorem count_ne_toString (n : Nat) : "count" ≠ toString n := by
  intro h
  have h1 := repr_digits n 'c' (by rw [← Nat.toString_eq_repr, ← h]; decide)
  exact absurd h1.2 (by decide)

theorem renameSet_new (k n : String) (r : List (String × String)) (h : r.lookup k = none) : renameSet k n r = r ++ [(k, n)] := by
  induction r with
  | nil => rfl
  | cons x r ih =>
    obtain ⟨a, b⟩ := x
    rw [List.lookup_cons] at h
    by_cases hk : k = a
    · subst hk; simp at h
    · rw [beq_eq_false_iff_ne.mpr hk] at h
      rw [renameSet, if_neg (Ne.symm hk), ih h]
      rfl

theorem aggColumns_append (v : String) (p : Passed) (t : List (String × List Passed)) :
    (aggColumns (appendAgg v p t)).Perm (aggColumns t ++ [(v, p)]) := by
  induction t with
  | nil => exact .refl _
  | cons x t ih =>
    obtain ⟨w, ps⟩ := x
    rw [appendAgg]
    split
    · next h =>
      subst h
      simp only [aggColumns, List.flatMap_cons, List.map_append, List.map_cons, List.map_nil, List.append_assoc]
      exact List.Perm.append_left _ List.perm_append_comm
    · simp only [aggColumns, List.flatMap_cons, List.append_assoc]
      exact List.Perm.append_left _ ih

theorem canAggReq_iff (f : AggReq) : canAggReq f = true ↔ ByAgg f := by
  obtain ⟨n, fn, bases, w, u, o⟩ := f
  unfold canAggReq ByAgg
  cases w with
  | none =>
    have e : (bases.filter fun b => (none : Option String) ≠ some b) = bases := List.filter_eq_self.mpr (by simp)
    simp only [e]
    cases u <;> simp [and_comm]
  | some w =>
    have e : (bases.filter fun b => some w ≠ some b) = bases.filter fun b => b ≠ w := by
      apply List.filter_congr
      intro b _
      simp [eq_comm]
    simp only [e]
    generalize (bases.filter fun b => b ≠ w) = l
    cases u <;> simp [and_comm]

/-- The state after some features, `A` listing the features passed to `agg` with what was passed for them. -/
structure AggInv (s : AggState) (A : List (AggReq × Passed)) : Prop where
  rename : s.rename = A.map fun x => (aggKey (x.1.bases.headD "") x.2.funcname, x.1.name)
  keys : (A.map fun x => aggKey (x.1.bases.headD "") x.2.funcname).Nodup
  columns : (aggColumns s.toAgg).Perm (A.map fun x => (x.1.bases.headD "", x.2))
  calls : ∀ x ∈ A, x.2.calls = x.1.function
  small : ∀ x ∈ A, ∀ id n, x.2 = .object id n → id < s.next

theorem lookup_rename (A : List (AggReq × Passed)) (k : String) :
    (A.map fun x => (aggKey (x.1.bases.headD "") x.2.funcname, x.1.name)).lookup k = none ↔
      k ∉ A.map fun x => aggKey (x.1.bases.headD "") x.2.funcname := by
  rw [lookup_none_iff]
  constructor
  · intro h hm
    obtain ⟨x, hx, rfl⟩ := List.mem_map.mp hm
    exact h x.1.name (List.mem_map.mpr ⟨x, hx, rfl⟩)
  · intro h v hv
    obtain ⟨x, hx, e⟩ := List.mem_map.mp hv
    cases e
    exact h (List.mem_map.mpr ⟨x, hx, rfl⟩)

/-- One more feature, if it is not a second count of one variable. -/
theorem aggInv_step {s : AggState} {A : List (AggReq × Passed)} (h : AggInv s A) (f : AggReq) (hc : canAggReq f = true)
    (hcount : f.function = .count → ∀ x ∈ A, x.1.function = .count → x.1.bases.headD "" ≠ f.bases.headD "")
    (hid : ∀ id, f.function = .object id → id < s.next) :
    ∃ p, AggInv (aggStep s f) (A ++ [(f, p)]) ∧ (aggStep s f).toApply = s.toApply ∧ s.next ≤ (aggStep s f).next := by
  have hnew : (passFunction s (f.bases.headD "") f.function).1.calls = f.function ∧
      aggKey (f.bases.headD "") (passFunction s (f.bases.headD "") f.function).1.funcname ∉
        (A.map fun x => aggKey (x.1.bases.headD "") x.2.funcname) ∧
      s.next ≤ (passFunction s (f.bases.headD "") f.function).2 ∧
      ∀ id n, (passFunction s (f.bases.headD "") f.function).1 = .object id n → id < (passFunction s (f.bases.headD "") f.function).2 := by
    cases hf : f.function with
    | count =>
      refine ⟨rfl, ?_, Nat.le_refl _, fun _ _ h => by cases h⟩
      intro hm
      obtain ⟨x, hx, e⟩ := List.mem_map.mp hm
      obtain ⟨e1, e2⟩ := aggKey_inj (q := .count) e
      refine hcount hf x hx ?_ e1
      rw [← h.calls x hx]
      cases hp : x.2 with
      | count => rfl
      | object id n => rw [hp] at e2; exact absurd e2.symm (count_ne_toString id)
    | object id =>
      simp only [passFunction]
      split
      · refine ⟨rfl, ?_, by simp, fun _ _ h => by cases h; simp⟩
        intro hm
        obtain ⟨x, hx, e⟩ := List.mem_map.mp hm
        obtain ⟨_, e2⟩ := aggKey_inj (q := .object s.next id) e
        cases hp : x.2 with
        | count => rw [hp] at e2; exact absurd e2 (count_ne_toString s.next)
        | object i n =>
          rw [hp] at e2
          have := toString_nat_inj e2
          have := h.small x hx i n hp
          omega
      · next hno =>
        refine ⟨rfl, ?_, Nat.le_refl _, fun _ _ h => by cases h; exact hid _ hf⟩
        rw [← lookup_rename, ← h.rename]
        cases hl : s.rename.lookup (aggKey (f.bases.headD "") (toString id)) with
        | none => exact hl
        | some n => exact absurd (by rw [hl]; rfl) hno
  obtain ⟨p, next, hp⟩ : ∃ p next, passFunction s (f.bases.headD "") f.function = (p, next) := ⟨_, _, rfl⟩
  rw [hp] at hnew
  obtain ⟨h1, h2, h3, h4⟩ := hnew
  have e : aggStep s f = { s with toAgg := appendAgg (f.bases.headD "") p s.toAgg, rename := renameSet (aggKey (f.bases.headD "") p.funcname) f.name s.rename, next := next } := by
    unfold aggStep
    rw [if_pos hc]
    simp only [hp]
  rw [e]
  refine ⟨p, ⟨?_, ?_, ?_, ?_, ?_⟩, rfl, h3⟩
  · simp only
    rw [renameSet_new _ _ _ (by rw [h.rename, lookup_rename]; exact h2), h.rename]
    simp
  · rw [List.map_append, List.nodup_append]
    refine ⟨h.keys, by simp, ?_⟩
    intro a ha b hb hab
    subst hab
    simp only [List.map_cons, List.map_nil, List.mem_singleton] at hb
    rw [hb] at ha
    exact h2 ha
  · refine (aggColumns_append _ _ _).trans ?_
    rw [List.map_append]
    exact List.Perm.append_right _ h.columns
  · intro x hx
    rcases List.mem_append.mp hx with hx | hx
    · exact h.calls x hx
    · simp at hx; subst hx; exact h1
  · intro x hx id n hid'
    rcases List.mem_append.mp hx with hx | hx
    · exact Nat.lt_of_lt_of_le (h.small x hx id n hid') h3
    · simp at hx; subst hx; exact h4 id n hid'

theorem aggInv_skip {s : AggState} {A : List (AggReq × Passed)} (h : AggInv s A) (f : AggReq) (hc : canAggReq f = false) :
    AggInv (aggStep s f) A ∧ (aggStep s f).toApply = s.toApply ++ [f] ∧ (aggStep s f).next = s.next := by
  have e : aggStep s f = { s with toApply := s.toApply ++ [f] } := by
    unfold aggStep
    rw [if_neg (by simp [hc])]
  rw [e]
  exact ⟨⟨h.rename, h.keys, h.columns, h.calls, h.small⟩, rfl, rfl⟩

theorem aggInv_fold (fs : List AggReq) : ∀ (s : AggState) (A : List (AggReq × Passed)), AggInv s A → OneCount (A.map Prod.fst ++ fs) →
    (∀ x ∈ A, canAggReq x.1 = true) → (∀ f ∈ fs, ∀ id, f.function = .object id → id < s.next) →
    ∃ B, AggInv (fs.foldl aggStep s) (A ++ B) ∧ B.map Prod.fst = fs.filter canAggReq ∧
      (fs.foldl aggStep s).toApply = s.toApply ++ fs.filter fun f => !canAggReq f := by
  induction fs with
  | nil =>
    intro s A h _ _ _
    exact ⟨[], by simpa using h, rfl, by simp⟩
  | cons f fs ih =>
    intro s A h hone hA hid
    rw [List.foldl_cons]
    cases hc : canAggReq f with
    | true =>
      obtain ⟨p, h', ha, hle⟩ := aggInv_step h f hc (by
        intro hf x hx hx'
        have := (List.pairwise_append.mp hone).2.2 x.1 (List.mem_map.mpr ⟨x, hx, rfl⟩) f List.mem_cons_self
        exact this ((canAggReq_iff _).mp (hA x hx)) ((canAggReq_iff _).mp hc) hx' hf) (fun id he => hid f List.mem_cons_self id he)
      obtain ⟨B, hB, hB1, hB2⟩ := ih _ _ h' (by simpa using hone) (by
        intro x hx
        rcases List.mem_append.mp hx with hx | hx
        · exact hA x hx
        · simp at hx; subst hx; exact hc) (fun g hg id he => Nat.lt_of_lt_of_le (hid g (List.mem_cons_of_mem _ hg) id he) hle)
      refine ⟨(f, p) :: B, by simpa using hB, ?_, ?_⟩
      · rw [List.map_cons, hB1, List.filter_cons_of_pos hc]
      · rw [hB2, ha, List.filter_cons_of_neg (by simp [hc])]
    | false =>
      obtain ⟨h', ha, hn⟩ := aggInv_skip h f hc
      have hone' : OneCount (A.map Prod.fst ++ fs) :=
        List.Pairwise.sublist (List.Sublist.append (List.Sublist.refl _) (List.sublist_cons_self _ _)) hone
      obtain ⟨B, hB, hB1, hB2⟩ := ih _ _ h' hone' hA (fun g hg id he => by rw [hn]; exact hid g (List.mem_cons_of_mem _ hg) id he)
      refine ⟨B, hB, ?_, ?_⟩
      · rw [hB1, List.filter_cons_of_neg (by simp [hc])]
      · rw [hB2, ha, List.filter_cons_of_pos (by simp [hc])]
        simp

theorem renameColumns_ok (r : List (String × String)) (g : String × Passed → String) : ∀ cs : List (String × Passed),
    (∀ c ∈ cs, r.lookup (aggKey c.1 c.2.funcname) = some (g c)) →
    renameColumns r cs = .ok (cs.map fun c => ⟨g c, c.2.calls, [c.1]⟩)
  | [], _ => rfl
  | (v, p) :: cs, h => by
    rw [renameColumns, h (v, p) List.mem_cons_self]
    simp only
    rw [renameColumns_ok r g cs fun c hc => h c (List.mem_cons_of_mem _ hc)]
    rfl

theorem lookup_of_nodup_keys {α : Type} (l : List (String × α)) (hn : (l.map Prod.fst).Nodup) (k : String) (v : α) (h : (k, v) ∈ l) :
    l.lookup k = some v := by
  induction l with
  | nil => cases h
  | cons x l ih =>
    obtain ⟨a, b⟩ := x
    rw [List.map_cons, List.nodup_cons] at hn
    rw [List.lookup_cons]
    rcases List.mem_cons.mp h with e | h'
    · cases e; simp
    · have hne : k ≠ a := by
        intro e
        exact hn.1 (e ▸ List.mem_map.mpr ⟨_, h', rfl⟩)
      rw [beq_eq_false_iff_ne.mpr hne]
      exact ih hn.2 h'

theorem filter_name_single (l : List AggColumn) (hn : (l.map AggColumn.name).Nodup) (c : AggColumn) (h : c ∈ l) :
    (l.filter fun x => x.name = c.name) = [c] := by
  induction l with
  | nil => cases h
  | cons a l ih =>
    rw [List.map_cons, List.nodup_cons] at hn
    rcases List.mem_cons.mp h with rfl | h
    · rw [List.filter_cons_of_pos (by simp)]
      have : (l.filter fun x => x.name = c.name) = [] := by
        rw [List.filter_eq_nil_iff]
        intro x hx
        simp only [decide_eq_true_iff]
        intro e
        exact hn.1 (e ▸ List.mem_map.mpr ⟨x, hx, rfl⟩)
      rw [this]
    · rw [List.filter_cons_of_neg]
      · exact ih hn.2 h
      · simp only [decide_eq_true_iff]
        intro e
        exact hn.1 (e ▸ List.mem_map.mpr ⟨c, h, rfl⟩)

end FT
