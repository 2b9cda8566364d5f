import Verif.Lemmas.Encode
/-! # One-hot encoding (C50) -/
namespace FT
open Spec

/-- C50: encoding replaces each encoded feature by indicators of its most frequent values, and `unknown`; the columns are those of the
returned features, then the columns that belong to no feature; the rows keep their order and every cell is right. -/
theorem C50_encoded_partial (o : EncOpts) (inplace : Bool) (t : Table) (features : List EFeat) (hm : OfMatrix t features) (ha : NewNamesApart o t features)
    (total : ∀ a b, o.le a b = true ∨ o.le b a = true) (trans : ∀ a b c, o.le a b = true → o.le b c = true → o.le a c = true)
    (hd : o.dropFirst = true → ∃ n, o.topN = .all n) (h0 : ∀ f ∈ features, 0 ≤ limitFor o f) :
    ∃ t' outs left, encodeFeatures o inplace t features = .ok (t', outs, left) ∧ Expanded o t features outs ∧
      t'.cols = outs.flatMap (outNames o) ++ t.cols.filter (fun c => decide (c ∉ features.flatMap EFeat.names)) ∧
      t'.rows.length = t.rows.length ∧
      (∀ (i : Nat) r r', t.rows[i]? = some r → t'.rows[i]? = some r' →
        (∀ e ∈ outs, RightCells o r r' e) ∧ ∀ c ∈ t.cols, c ∉ features.flatMap EFeat.names → r' c = r c) ∧
      (inplace = false → left = t) := by
  obtain ⟨s, hs, hi, hx, hfd⟩ := encodeLoop_ok hm ha total trans hd h0 features [] ⟨t, [], []⟩ (by simp)
    ⟨⟨id, by simp, fun r => ⟨fun _ _ => rfl, by simp⟩⟩, by simp, by simp, fun c hc _ => hc⟩ .nil (by simp)
  unfold encodeFeatures
  rw [if_neg]
  · simp only [hs]
    have hsel : s.X.select (s.newCols ++ t.cols.filter fun c => !(features.flatMap EFeat.names).contains c) =
        .ok ⟨s.newCols ++ t.cols.filter fun c => !(features.flatMap EFeat.names).contains c, s.X.rows⟩ := by
      unfold Table.select
      rw [if_pos]
      simp only [List.all_eq_true, List.contains_iff_mem]
      intro c hc
      rcases List.mem_append.mp hc with hc | hc
      · exact hi.has c hc
      · obtain ⟨hc1, hc2⟩ := List.mem_filter.mp hc
        refine hi.kept c hc1 ?_
        intro hg
        unfold goneCols at hg
        obtain ⟨g, hg', rfl⟩ := List.mem_map.mp hg
        obtain ⟨hg1, hg2⟩ := List.mem_filter.mp hg'
        have henc : Encodes o g := (leftAsIs_iff o g).mp (by simpa using hg2)
        have : g.name ∈ g.names := by rw [(hm.1 g hg1).2.2 henc.2.1]; simp
        simp only [Bool.not_eq_true', ← Bool.not_eq_true, List.contains_iff_mem] at hc2
        exact hc2 (List.mem_flatMap.mpr ⟨g, hg1, this⟩)
    rw [hsel]
    obtain ⟨g, hg, hr⟩ := hi.rows
    refine ⟨_, _, _, rfl, hx, ?_, by simp [hg], ?_, ?_⟩
    · simp only [hi.names]
      congr 1
      apply List.filter_congr
      intro c _
      rw [Bool.eq_iff_iff]
      simp
    · intro i r r' h1 h2
      simp only [hg, List.getElem?_map, h1, Option.map_some, Option.some.injEq] at h2
      subst h2
      exact ⟨(hr r).2, fun c hc _ => (hr r).1 c hc⟩
    · intro h; simp [h]
  · simp only [Bool.not_eq_true', Bool.not_eq_false, List.all_eq_true, List.contains_iff_mem]
    exact fun f hf n hn => (hm.1 f hf).1 n hn

theorem expanded_mem {o : EncOpts} {t : Table} {fs : List EFeat} {outs : List EOut} (h : Expanded o t fs outs) {f : EFeat} (hf : f ∈ fs) :
    ∃ os, Expansion o t f os ∧ ∀ e ∈ os, e ∈ outs := by
  induction h with
  | nil => simp at hf
  | cons h1 _ ih =>
    rcases List.mem_cons.mp hf with rfl | hf
    · exact ⟨_, h1, fun e he => List.mem_append_left _ he⟩
    · obtain ⟨os, h2, h3⟩ := ih hf
      exact ⟨os, h2, fun e he => List.mem_append_right _ (h3 e he)⟩

/-- C50: with `include_unknown`, in each row exactly one of the indicators of an encoded feature is set. -/
theorem C50_one_hot_partial (o : EncOpts) (inplace : Bool) (t : Table) (features : List EFeat) (hm : OfMatrix t features) (ha : NewNamesApart o t features)
    (total : ∀ a b, o.le a b = true ∨ o.le b a = true) (trans : ∀ a b c, o.le a b = true → o.le b c = true → o.le a c = true)
    (hd : o.dropFirst = true → ∃ n, o.topN = .all n) (h0 : ∀ f ∈ features, 0 ≤ limitFor o f) (hu : o.includeUnknown = true)
    (f : EFeat) (hf : f ∈ features) (he : Encodes o f) :
    ∃ t' outs left, encodeFeatures o inplace t features = .ok (t', outs, left) ∧ ∃ labels, LabelsOf o t f labels ∧
      (∀ c ∈ labels.map (o.eqName f.name) ++ [f.name ++ " is unknown"], c ∈ t'.cols) ∧
      ∀ r' ∈ t'.rows, ∃ c ∈ labels.map (o.eqName f.name) ++ [f.name ++ " is unknown"], r' c = .bool true ∧
        ∀ d ∈ labels.map (o.eqName f.name) ++ [f.name ++ " is unknown"], d ≠ c → r' d = .bool false := by
  obtain ⟨t', outs, left, h1, h2, h3, h4, h5, _⟩ := C50_encoded_partial o inplace t features hm ha total trans hd h0
  refine ⟨t', outs, left, h1, ?_⟩
  obtain ⟨os, hos, hsub⟩ := expanded_mem h2 hf
  rcases hos with ⟨hn, _⟩ | ⟨_, labels, hl, hos⟩
  · exact absurd he hn
  · simp only [hu, if_true] at hos
    refine ⟨labels, hl, ?_, ?_⟩
    · intro c hc
      rw [h3]
      apply List.mem_append_left
      rcases List.mem_append.mp hc with hc | hc
      · obtain ⟨l, hl', rfl⟩ := List.mem_map.mp hc
        exact List.mem_flatMap.mpr ⟨.equals f l, hsub _ (by rw [hos]; exact List.mem_append_left _ (List.mem_map.mpr ⟨l, hl', rfl⟩)), by simp [outNames]⟩
      · exact List.mem_flatMap.mpr ⟨.unknown f labels, hsub _ (by rw [hos]; simp), by simpa [outNames] using hc⟩
    · intro r' hr'
      obtain ⟨i, hi, rfl⟩ := List.getElem_of_mem hr'
      obtain ⟨r, hr⟩ : ∃ r, t.rows[i]? = some r := ⟨_, List.getElem?_eq_getElem (by omega)⟩
      have hcells := (h5 i r t'.rows[i] hr (by simp)).1
      have heq : ∀ l ∈ labels, t'.rows[i] (o.eqName f.name l) = .bool (decide (r f.name = l)) := fun l hl' =>
        hcells (.equals f l) (hsub _ (by rw [hos]; exact List.mem_append_left _ (List.mem_map.mpr ⟨l, hl', rfl⟩)))
      have hunk : t'.rows[i] (f.name ++ " is unknown") = .bool (decide (r f.name ∉ labels)) :=
        hcells (.unknown f labels) (hsub _ (by rw [hos]; simp))
      by_cases hv : r f.name ∈ labels
      · refine ⟨o.eqName f.name (r f.name), List.mem_append_left _ (List.mem_map.mpr ⟨_, hv, rfl⟩), by rw [heq _ hv]; simp, ?_⟩
        intro d hd' hne
        rcases List.mem_append.mp hd' with hd' | hd'
        · obtain ⟨l, hl', rfl⟩ := List.mem_map.mp hd'
          rw [heq l hl']
          simp only [Val.bool.injEq, decide_eq_false_iff_not]
          exact fun e => hne (by rw [e])
        · simp only [List.mem_singleton] at hd'
          subst hd'
          rw [hunk]
          simp [hv]
      · refine ⟨_, List.mem_append_right _ (List.mem_singleton.mpr rfl), by rw [hunk]; simp [hv], ?_⟩
        intro d hd' hne
        rcases List.mem_append.mp hd' with hd' | hd'
        · obtain ⟨l, hl', rfl⟩ := List.mem_map.mp hd'
          rw [heq l hl']
          simp only [Val.bool.injEq, decide_eq_false_iff_not]
          exact fun e => hv (by rw [e]; exact hl')
        · simp only [List.mem_singleton] at hd'
          exact absurd hd' hne

/-- C50: a feature whose column is not in the matrix is reported. -/
theorem C50_missing_column (o : EncOpts) (inplace : Bool) (t : Table) (features : List EFeat) :
    encodeFeatures o inplace t features = .error .assertionError ↔ ∃ f ∈ features, ∃ n ∈ f.names, n ∉ t.cols := by
  have hloop : ∀ (fs : List EFeat) (s : EncState) e, encodeLoop o s fs = .error e → e = .keyError ∨ e = .typeError := by
    intro fs
    induction fs with
    | nil => intro s e h; cases h
    | cons f fs ih =>
      intro s e h
      rw [encodeLoop] at h
      split at h
      · next e' he =>
        cases h
        unfold encodeOne at he
        split at he
        · cases he
        · split at he
          · cases he; exact .inl rfl
          · dsimp only at he
            split at he
            · next e'' hn =>
              cases he
              unfold selectN at hn
              split at hn
              · split at hn <;> cases hn
                exact .inr rfl
              · split at hn <;> cases hn
            · cases he
      · exact ih _ _ h
  unfold encodeFeatures
  constructor
  · intro h
    split at h
    · next hc =>
      simp only [Bool.not_eq_true', List.all_eq_false, List.all_eq_true, Classical.not_forall, List.contains_iff_mem] at hc
      obtain ⟨f, hf, n, hn, hnc⟩ := hc
      exact ⟨f, hf, n, hn, hnc⟩
    · split at h
      · next e he =>
        cases h
        rcases hloop _ _ _ he with h | h <;> cases h
      · split at h
        · next e he =>
          cases h
          unfold Table.select at he
          split at he <;> cases he
        · cases h
  · rintro ⟨f, hf, n, hn, hnc⟩
    rw [if_pos]
    simp only [Bool.not_eq_true', List.all_eq_false, List.all_eq_true, Classical.not_forall, List.contains_iff_mem]
    exact ⟨f, hf, n, hn, hnc⟩

namespace EncodeExample
def show' : Val → String | .str s => s | .num _ => "n" | .bool _ => "b" | .null => "nan"
def leStr (a b : Val) : Bool := match a, b with | .str a, .str b => decide (a ≤ b) | .str _, _ => false | _, _ => true
def opts : EncOpts := ⟨.all 2, true, none, false, fun n v => n ++ " = " ++ show' v, leStr⟩
def dev : EFeat := ⟨"device", ["device"], true⟩
def amt : EFeat := ⟨"amount", ["amount"], false⟩
def m : Table := ⟨["amount", "device", "label"], [Row.ofList [("amount", .num 3), ("device", .str "pc"), ("label", .num 1)],
  Row.ofList [("amount", .num 4), ("device", .str "tablet"), ("label", .num 0)], Row.ofList [("amount", .num 5), ("device", .str "phone"), ("label", .num 0)],
  Row.ofList [("amount", .num 5), ("device", .str "pc")], Row.ofList [("amount", .num 5)]]⟩
/-- The encoding of a matrix with a pass-through column: names, and the indicator columns. -/
example : ((encodeFeatures opts false m [amt, dev]).toOption.map fun r => (r.1.cols, r.1.rows.map fun row => [row "device = pc", row "device = tablet", row "device is unknown", row "label"])) =
    some (["amount", "device = pc", "device = tablet", "device is unknown", "label"],
      [[.bool true, .bool false, .bool false, .num 1], [.bool false, .bool true, .bool false, .num 0], [.bool false, .bool false, .bool true, .num 0],
       [.bool true, .bool false, .bool false, .null], [.bool false, .bool false, .bool true, .null]]) := by decide +kernel
/-- The hypotheses are met. -/
example : OfMatrix m [amt, dev] ∧ (∀ f ∈ [amt, dev], 0 ≤ limitFor opts f) ∧ Encodes opts dev ∧ ¬Encodes opts amt := by
  refine ⟨⟨?_, by decide⟩, by decide, ?_, ?_⟩
  · intro f hf
    simp only [List.mem_cons, List.not_mem_nil, or_false] at hf
    rcases hf with rfl | rfl <;> decide
  · exact ⟨rfl, by decide, by simp [opts]⟩
  · rintro ⟨h, _⟩; cases h
theorem leStr_total (a b : Val) : leStr a b = true ∨ leStr b a = true := by
  cases a <;> cases b <;> simp [leStr, String.le_total]
theorem leStr_trans (a b c : Val) : leStr a b = true → leStr b c = true → leStr a c = true := by
  cases a <;> cases b <;> cases c <;> simp [leStr] <;> exact fun h1 h2 => String.le_trans h1 h2
example : NewNamesApart opts m [dev] := by
  have hocc : ∀ l, Occurs m dev l → l ∈ [Val.str "pc", .str "tablet", .str "phone"] := by
    rintro l ⟨hn, r, hr, rfl⟩
    simp only [m, List.mem_cons, List.not_mem_nil, or_false] at hr
    rcases hr with rfl | rfl | rfl | rfl | rfl <;> first | decide | exact absurd rfl hn
  simp only [NewNamesApart, List.mem_singleton, forall_eq]
  refine ⟨by decide, ?_, ?_, ?_⟩
  · intro l hl
    have : ∀ l ∈ [Val.str "pc", .str "tablet", .str "phone"], opts.eqName dev.name l ∉ m.cols := by decide
    exact this l (hocc l hl)
  · intro l l' hl hl' e
    have : ∀ l ∈ [Val.str "pc", .str "tablet", .str "phone"], ∀ l' ∈ [Val.str "pc", .str "tablet", .str "phone"], opts.eqName dev.name l = opts.eqName dev.name l' → l = l' := by decide
    exact ⟨trivial, this l (hocc l hl) l' (hocc l' hl') e⟩
  · intro l hl
    have : ∀ l ∈ [Val.str "pc", .str "tablet", .str "phone"], opts.eqName dev.name l ≠ dev.name ++ " is unknown" := by decide
    exact this l (hocc l hl)
end EncodeExample
open EncodeExample

/-- C50: a column that belongs to no feature is overwritten if an indicator has its name. -/
theorem C50_names_violated :
    ∃ t : Table, "device = pc" ∈ t.cols ∧ (∀ r ∈ t.rows, r "device = pc" = .num 7) ∧ t.rows ≠ [] ∧
      ((encodeFeatures opts false t [dev]).toOption.map fun r => (r.1.cols, r.1.rows.map fun row => row "device = pc")) =
        some (["device = pc", "device is unknown", "device = pc"], [.bool true]) :=
  ⟨⟨["device", "device = pc"], [Row.ofList [("device", .str "pc"), ("device = pc", .num 7)]]⟩, by decide, by decide, by simp, by decide +kernel⟩

/-- C50: `drop_first` together with a dict for `top_n` is a `TypeError`. -/
theorem C50_drop_first_violated :
    (encodeFeatures { opts with topN := .per [("device", 2)], dropFirst := true } false m [amt, dev]).toOption.isNone = true ∧
      (match encodeFeatures { opts with topN := .per [("device", 2)], dropFirst := true } false m [amt, dev] with
        | .error e => e = .typeError | .ok _ => False) := by
  constructor
  · decide +kernel
  · rfl

/-- C50: a missing value makes the row `unknown`, and a negative `top_n` takes all but the last values. -/
theorem C50_negative_violated :
    ((encodeFeatures { opts with topN := .all (-1) } false m [dev]).toOption.map fun r => r.1.cols) =
      some ["device = pc", "device = tablet", "device is unknown", "amount", "label"] := by decide +kernel

end FT
