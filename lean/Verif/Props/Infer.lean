import Verif.Spec.Infer
import Verif.Lemmas.Query
/-!
# C58: type inference
-/
namespace FT

theorem assumed_iff (a : InferArgs) (n : String) : (assumedDatetime a).contains n = true ↔ (a.timeIndex = some n ∨ a.secondary[0]? = some n) := by
  simp only [assumedDatetime, List.contains_iff_mem, List.mem_append, Option.mem_toList]
  cases h : a.secondary with
  | nil => simp
  | cons x l => simp [eq_comm]

theorem strLens_texts (l : List Val) : strLens l = (Spec.texts l).map String.length := by
  unfold strLens Spec.texts
  rw [List.map_filterMap]
  congr 1
  funext v
  cases v <;> rfl

theorem longText_iff (l : List Val) : longText l = true ↔ Spec.LongTexts l := by
  unfold longText Spec.LongTexts
  rw [strLens_texts, List.length_map]
  cases h : Spec.texts l with
  | nil => simp
  | cons x t =>
    simp only [List.map_cons, List.isEmpty_cons, Bool.not_false, Bool.true_and, decide_eq_true_eq, gt_iff_lt]
    have hpos : (0 : Rat) < (((x :: t).length : Nat) : Rat) := by
      have : 0 < (x :: t).length := by simp
      exact_mod_cast this
    rw [Rat.lt_div_iff hpos]
    norm_cast

theorem longTexts_perm {l l' : List Val} (h : l.Perm l') : Spec.LongTexts l ↔ Spec.LongTexts l' := by
  unfold Spec.LongTexts
  have h1 : (Spec.texts l).Perm (Spec.texts l') := h.filterMap _
  rw [h1.length_eq, (h1.map String.length).sum_nat]

theorem fewDifferent_iff (l : List Val) (hne : l ≠ []) : ((dedup l).length : Rat) / (l.length : Rat) < 1 / 20 ↔ Spec.FewDifferent l := by
  have hpos : (0 : Rat) < ((l.length : Nat) : Rat) := by
    have : 0 < l.length := List.length_pos_iff.mpr hne
    exact_mod_cast this
  rw [Rat.div_lt_iff hpos]
  have e : ((dedup l).length : Rat) < 1 / 20 * (l.length : Rat) ↔ 20 * (dedup l).length < l.length := by
    have : (20 * (dedup l).length < l.length) ↔ (20 * ((dedup l).length : Rat) < (l.length : Rat)) := by norm_cast
    rw [this]; grind
  rw [e]
  constructor
  · intro h vs hn hm
    have : vs.Perm (dedup l) := (List.perm_ext_iff_of_nodup hn (nodup_dedup l)).mpr fun v => by rw [hm, mem_dedup]
    rw [this.length_eq]; exact h
  · intro h
    exact h _ (nodup_dedup l) fun v => mem_dedup l v

theorem fewDifferent_perm {l l' : List Val} (h : l.Perm l') : Spec.FewDifferent l ↔ Spec.FewDifferent l' := by
  unfold Spec.FewDifferent
  simp only [h.mem_iff, h.length_eq]

theorem sample_perm {sample : Nat → List Val → List Val} (hs : Spec.Picks sample) (l : List Val) (hl : l.length ≤ 10000) :
    (sample (min 10000 l.length) l).Perm l := by
  rw [Nat.min_eq_right hl]
  obtain ⟨h1, rest, h2⟩ := hs l.length l (Nat.le_refl _)
  have : rest = [] := by
    have := h2.length_eq
    rw [List.length_append, h1] at this
    exact List.length_eq_zero_iff.mp (by omega)
  rw [this, List.append_nil] at h2
  exact h2

/-- The type of a column that tells it. -/
theorem inferStep_type (a : InferArgs) (hs : Spec.Picks a.sample) (prev : String) (c : InferCol) (hl : c.cells.length ≤ 10000)
    (ht : Spec.TellsType a c) (t : String) : inferStep a prev c = t ↔ Spec.HasType a c t := by
  have key : Spec.HasType a c (inferStep a prev c) := by
    unfold inferStep
    by_cases h1 : (assumedDatetime a).contains c.name = true
    · rw [if_pos h1]
      rw [assumed_iff] at h1
      cases hd : c.isDatetime
      · simp only [Bool.false_eq_true, if_false]; exact .timeNum h1 hd
      · simp only [if_true]; exact .timeDate h1 hd
    · rw [if_neg h1]
      rw [assumed_iff] at h1
      by_cases h2 : a.links.contains c.name = true
      · rw [if_pos h2]; exact .link h1 (by simpa using h2)
      · rw [if_neg h2]
        have h2' : c.name ∉ a.links := by simpa using h2
        apply Spec.HasType.plain _ h1 h2'
        cases hk : c.kind with
        | bool => exact .inr (.inl ⟨rfl, rfl⟩)
        | category => exact .inr (.inr (.inl ⟨rfl, rfl⟩))
        | numeric => exact .inr (.inr (.inr (.inl ⟨rfl, rfl⟩)))
        | object =>
          refine .inl ⟨rfl, ?_⟩
          simp only []
          by_cases he : c.cells = []
          · left; simp [he]
          · right
            have he' : c.cells.isEmpty = false := by simpa using he
            simp only [he', Bool.false_eq_true, if_false]
            cases hd : c.isDatetime
            · right
              simp only [Bool.false_eq_true, if_false]
              by_cases hlt : Spec.LongTexts c.cells
              · left
                rw [if_pos ((longText_iff _).mpr ((longTexts_perm (sample_perm hs _ hl)).mpr hlt))]
                exact ⟨he, trivial, hlt, rfl⟩
              · right
                rw [if_neg (fun h => hlt ((longTexts_perm (sample_perm hs _ hl)).mp ((longText_iff _).mp h)))]
                exact ⟨he, trivial, hlt, rfl⟩
            · left; simp [he]
        | other =>
          refine .inr (.inr (.inr (.inr ⟨rfl, ?_⟩)))
          simp only []
          cases hd : c.isDatetime
          · right
            have he : c.cells ≠ [] := by
              rcases ht with h | h | h | h | h | h
              · exact h
              · exact absurd hk h
              · rw [hd] at h; cases h
              · exact absurd h h2'
              · exact absurd (.inl h) h1
              · exact absurd (.inr h) h1
            have he' : c.cells.isEmpty = false := by simpa using he
            simp only [he', Bool.false_eq_true, if_false, Bool.not_false, if_true]
            have hp := sample_perm hs _ hl
            have hne : a.sample (min 10000 c.cells.length) c.cells ≠ [] := by
              intro e; rw [e] at hp; exact he hp.symm.eq_nil
            by_cases hf : Spec.FewDifferent c.cells
            · left
              rw [if_pos ((fewDifferent_iff _ hne).mpr ((fewDifferent_perm hp).mpr hf))]
              exact ⟨trivial, he, hf, rfl⟩
            · right
              rw [if_neg (fun h => hf ((fewDifferent_perm hp).mp ((fewDifferent_iff _ hne).mp h)))]
              exact ⟨trivial, he, hf, rfl⟩
          · left; simp
  constructor
  · rintro rfl; exact key
  · intro h
    generalize inferStep a prev c = u at key
    cases key <;> cases h <;> grind

theorem inferLoop_lookup (a : InferArgs) : ∀ (cols : List InferCol) (prev : String), (cols.map InferCol.name).Nodup → ∀ c ∈ cols,
    c.name ∉ a.given → ∃ p, (inferLoop a prev cols).lookup c.name = some (inferStep a p c)
  | [], _, _, c, hc, _ => by simp at hc
  | d :: cols, prev, hn, c, hc, hg => by
    obtain ⟨h1, h2⟩ := List.nodup_cons.mp (by simpa using hn : (d.name :: cols.map InferCol.name).Nodup)
    unfold inferLoop
    rcases List.mem_cons.mp hc with rfl | hc'
    · have : a.given.contains c.name = false := by simpa using hg
      simp only [this, Bool.false_eq_true, if_false, List.lookup_cons, beq_self_eq_true]
      exact ⟨prev, rfl⟩
    · have hne : c.name ≠ d.name := fun e => h1 (e ▸ List.mem_map.mpr ⟨c, hc', rfl⟩)
      have hne' : (c.name == d.name) = false := by simpa using hne
      split
      · exact inferLoop_lookup a cols prev h2 c hc' hg
      · simp only [List.lookup_cons, hne']
        exact inferLoop_lookup a cols _ h2 c hc' hg

/-- C58: types are inferred for exactly the columns without a given one, in their order. -/
theorem C58_columns (a : InferArgs) (cols : List InferCol) :
    (inferVariableTypes a cols).map Prod.fst = (cols.map InferCol.name).filter fun n => decide (n ∉ a.given) := by
  unfold inferVariableTypes
  generalize "unknown" = prev
  induction cols generalizing prev with
  | nil => rfl
  | cons c cols ih =>
    unfold inferLoop
    by_cases h : c.name ∈ a.given
    · rw [if_pos (by simpa using h), ih]; simp [h]
    · rw [if_neg (by simpa using h), List.map_cons, ih]; simp [h]

/-- C58: the type of a column is chosen by its own data and role, whatever the other columns are and whichever rows are
sampled. Partial: the column has at most 10000 rows (`C58_sample_violated`), and it has rows or a type of its own
(`C58_carry_over_violated`). -/
theorem C58_type_partial (a : InferArgs) (hs : Spec.Picks a.sample) (cols : List InferCol) (hn : (cols.map InferCol.name).Nodup)
    (c : InferCol) (hc : c ∈ cols) (hg : c.name ∉ a.given) (hl : c.cells.length ≤ 10000) (ht : Spec.TellsType a c) (t : String) :
    (inferVariableTypes a cols).lookup c.name = some t ↔ Spec.HasType a c t := by
  obtain ⟨p, hp⟩ := inferLoop_lookup a cols "unknown" hn c hc hg
  unfold inferVariableTypes
  rw [hp, Option.some.injEq]
  exact inferStep_type a hs p c hl ht t

theorem hasType_roles {a b : InferArgs} (h : Spec.SameRoles a b) {c : InferCol} {t : String} (ht : Spec.HasType a c t) : Spec.HasType b c t := by
  obtain ⟨_, h2, h3, h4⟩ := h
  cases ht with
  | timeDate h1 h => exact .timeDate (by rwa [← h3, ← h4]) h
  | timeNum h1 h => exact .timeNum (by rwa [← h3, ← h4]) h
  | link h1 h => exact .link (by rwa [← h3, ← h4]) (by rwa [← h2])
  | plain _ h1 h h' => exact .plain _ (by rwa [← h3, ← h4]) (by rwa [← h2]) h'

/-- C58: the same column gets the same type in any two tables, with the same role. Partial as `C58_type_partial`. -/
theorem C58_other_columns_partial (a b : InferArgs) (ha : Spec.Picks a.sample) (hb : Spec.Picks b.sample) (hab : Spec.SameRoles a b)
    (cols cols' : List InferCol) (hn : (cols.map InferCol.name).Nodup) (hn' : (cols'.map InferCol.name).Nodup)
    (c : InferCol) (hc : c ∈ cols) (hc' : c ∈ cols') (hl : c.cells.length ≤ 10000) (ht : Spec.TellsType a c) :
    (inferVariableTypes a cols).lookup c.name = (inferVariableTypes b cols').lookup c.name := by
  by_cases hg : c.name ∈ a.given
  · have key : ∀ (x : InferArgs) (l : List InferCol), c.name ∈ x.given → (inferVariableTypes x l).lookup c.name = none := by
      intro x l hx
      rw [List.lookup_eq_none_iff]
      rintro ⟨n, t⟩ hp
      have : n ∈ (inferVariableTypes x l).map Prod.fst := List.mem_map.mpr ⟨_, hp, rfl⟩
      rw [C58_columns, List.mem_filter] at this
      have h2 : n ∉ x.given := by simpa using this.2
      simpa using fun e : c.name = n => h2 (e ▸ hx)
    rw [key a cols hg, key b cols' (hab.1 ▸ hg)]
  · obtain ⟨p, hp⟩ := inferLoop_lookup a cols "unknown" hn c hc hg
    have h1 := (C58_type_partial a ha cols hn c hc hg hl ht _).mp hp
    have ht' : Spec.TellsType b c := by
      obtain ⟨_, h2, h3, h4⟩ := hab
      unfold Spec.TellsType
      rw [← h2, ← h3, ← h4]; exact ht
    have h2 := (C58_type_partial b hb cols' hn' c hc' (hab.1 ▸ hg) hl ht' _).mpr (hasType_roles hab h1)
    rw [h2]; exact hp

namespace InferExample
/-- Take the first rows. -/
def args : InferArgs := ⟨[], [], some "t", [], fun n l => l.take n⟩
/-- Take the last rows. -/
def args' : InferArgs := ⟨[], [], some "t", [], fun n l => l.drop (l.length - n)⟩
/-- An empty column of time differences. -/
def wait : InferCol := ⟨"wait", .other, false, []⟩
/-- A column of booleans. -/
def paid : InferCol := ⟨"paid", .bool, false, []⟩
/-- A column of numbers. -/
def amount : InferCol := ⟨"amount", .numeric, false, []⟩
/-- Many empty strings, and another one. -/
def notes (n : Nat) (s : String) : InferCol := ⟨"notes", .object, false, List.replicate n (.str "") ++ [.str s]⟩
end InferExample
open InferExample

theorem picks_args : Spec.Picks args.sample := by
  intro n l h
  exact ⟨by simp [args]; omega, l.drop n, by simp [args]⟩

theorem picks_args' : Spec.Picks args'.sample := by
  intro n l h
  refine ⟨by simp [args']; omega, l.take (l.length - n), ?_⟩
  have := List.perm_append_comm (l₁ := l.drop (l.length - n)) (l₂ := l.take (l.length - n))
  rw [List.take_append_drop] at this
  exact this

example : inferVariableTypes args [paid, ⟨"kind", .object, false, [.str "a", .null]⟩, ⟨"t", .other, true, [.num 3]⟩] =
    [("paid", "boolean"), ("kind", "categorical"), ("t", "datetime")] := by decide +kernel
example : Spec.SameRoles args args' ∧ Spec.TellsType args paid ∧ ([paid, wait].map InferCol.name).Nodup := by
  refine ⟨⟨rfl, rfl, rfl, rfl⟩, .inr (.inl (by decide)), by decide⟩

/-- C58 does not hold for a column without rows whose dtype has no type of its own: it gets the type of the column before it. -/
theorem C58_carry_over_violated : ∃ (a : InferArgs) (c d e : InferCol),
    (inferVariableTypes a [d, c]).lookup c.name ≠ (inferVariableTypes a [e, c]).lookup c.name :=
  ⟨args, wait, paid, amount, by decide⟩

/-- C58 does not hold for more than 10000 rows: the type depends on the rows that happen to be sampled. -/
theorem C58_sample_violated : ∃ (a b : InferArgs) (c : InferCol), Spec.Picks a.sample ∧ Spec.Picks b.sample ∧ Spec.SameRoles a b ∧
    (inferVariableTypes a [c]).lookup c.name ≠ (inferVariableTypes b [c]).lookup c.name := by
  obtain ⟨long, hlong⟩ : ∃ s : String, s.length = 600000 := by
    have : ∀ k, ∃ s : String, s.length = k := fun k => ⟨String.ofList (List.replicate k 'x'), by simp⟩
    exact this _
  obtain ⟨n, hn⟩ : ∃ n : Nat, n = 10000 := ⟨_, rfl⟩
  refine ⟨args, args', notes n long, picks_args, picks_args', ⟨rfl, rfl, rfl, rfl⟩, ?_⟩
  have hlen : (notes n long).cells.length = n + 1 := by simp [notes]
  have hmin : min 10000 (notes n long).cells.length = n := by omega
  have h1 : args.sample n (notes n long).cells = List.replicate n (.str "") := by
    simp [args, notes]
  have h2 : ∃ m, m + 1 = n ∧ args'.sample n (notes n long).cells = List.replicate m (.str "") ++ [.str long] := by
    refine ⟨n - 1, by omega, ?_⟩
    simp only [args', hlen]
    have : n + 1 - n = 1 := by omega
    rw [this]
    obtain ⟨m, rfl⟩ : ∃ m, n = m + 1 := ⟨n - 1, by omega⟩
    simp [notes, List.replicate_succ]
  obtain ⟨m, hm, h2⟩ := h2
  have hne : (notes n long).cells.isEmpty = false := by rw [← Bool.not_eq_true, List.isEmpty_iff]; intro e; rw [e] at hlen; simp at hlen
  have t : ∀ k, Spec.texts (List.replicate k (Val.str "")) = List.replicate k "" := by
    intro k
    simp [Spec.texts, List.filterMap_replicate]
  have t' : Spec.texts (List.replicate m (Val.str "") ++ [Val.str long]) = List.replicate m "" ++ [long] := by
    have := t m
    unfold Spec.texts at this ⊢
    rw [List.filterMap_append, this]
    rfl
  have l1 : longText (List.replicate n (Val.str "")) = false := by
    rw [← Bool.not_eq_true, longText_iff, Spec.LongTexts, t]
    simp
  have l2 : longText (List.replicate m (Val.str "") ++ [Val.str long]) = true := by
    rw [longText_iff, Spec.LongTexts, t']
    simp [hlong]
    omega
  have e1 : inferStep args "unknown" (notes n long) = "categorical" := by
    unfold inferStep
    simp only [hmin, h1, l1, hne]
    rfl
  have e2 : inferStep args' "unknown" (notes n long) = "natural_language" := by
    unfold inferStep
    simp only [hmin, h2, l2, hne]
    rfl
  have r : ∀ (a : InferArgs) (c : InferCol), a.given = [] → (inferVariableTypes a [c]).lookup c.name = some (inferStep a "unknown" c) := by
    intro a c ha
    simp only [inferVariableTypes, inferLoop, ha, List.contains_nil, Bool.false_eq_true, if_false, List.lookup_cons, beq_self_eq_true]
  rw [r args _ rfl, r args' _ rfl, e1, e2]
  decide

end FT
