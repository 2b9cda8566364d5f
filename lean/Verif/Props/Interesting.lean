import Verif.Spec.Interesting
import Verif.Lemmas.Aggregate
/-!
# C56: interesting values
-/
namespace FT

theorem dedup_of_nodup {α : Type} [DecidableEq α] : ∀ l : List α, l.Nodup → dedup l = l
  | [], _ => rfl
  | a :: l, h => by
    obtain ⟨h1, h2⟩ := List.nodup_cons.mp h
    rw [dedup, dedup_of_nodup l h2, List.filter_eq_self.mpr]
    intro b hb
    simpa using fun e : b = a => h1 (e ▸ hb)

theorem count_add_count_le {v w : Val} (hvw : v ≠ w) (hv : v ≠ .null) (hw : w ≠ .null) (s : List Val) :
    s.count v + s.count w ≤ (dropna s).length := by
  induction s with
  | nil => simp
  | cons a s ih =>
    unfold dropna at ih ⊢
    simp only [List.count_cons, List.filter_cons, ne_eq, decide_not] at ih ⊢
    by_cases h1 : a = v
    · subst h1; simp [hv, hvw]; omega
    · by_cases h2 : a = w
      · subst h2; simp [hw, h1]; omega
      · simp only [beq_iff_eq, h1, h2, if_false]; split <;> simp <;> omega

theorem interestingLoop_few (col : List Val) : ∀ l, interestingLoop col true l = l
  | [] => rfl
  | a :: l => by simp [interestingLoop, interestingLoop_few col l]

/-- The loop stops at the first value outside the range. -/
theorem interestingLoop_prefix (col : List Val) : ∀ l : List Val, ∃ k, interestingLoop col false l = l.take k ∧ k ≤ l.length ∧
    (∀ v ∈ l.take k, countShare col v > 1 / 20 ∧ countShare col v < 19 / 20) ∧
    ∀ v, l[k]? = some v → ¬(countShare col v > 1 / 20 ∧ countShare col v < 19 / 20)
  | [] => ⟨0, by simp [interestingLoop], by simp, by simp, by simp⟩
  | a :: l => by
    by_cases h : countShare col a > 1 / 20 ∧ countShare col a < 19 / 20
    · obtain ⟨k, h1, h2, h3, h4⟩ := interestingLoop_prefix col l
      refine ⟨k + 1, ?_, by simpa using h2, ?_, fun v hv => h4 v (by simpa using hv)⟩
      · simp only [interestingLoop, Bool.false_eq_true, if_false, if_pos h, h1, List.take_succ_cons]
      · intro v hv
        rcases List.mem_cons.mp (by simpa using hv : v ∈ a :: l.take k) with rfl | hv
        · exact h
        · exact h3 v hv
    · refine ⟨0, ?_, by simp, by simp, fun v hv => ?_⟩
      · simp only [interestingLoop, Bool.false_eq_true, if_false, if_neg h, List.take_zero]
      · simp at hv; subst hv; exact h

theorem share_mono {s : List Val} {v w : Val} (h : s.count w ≤ s.count v) : countShare s w ≤ countShare s v := by
  unfold countShare
  have h1 : (s.count w : Rat) ≤ (s.count v : Rat) := by exact_mod_cast h
  rcases Nat.eq_zero_or_pos (dropna s).length with h0 | h0
  · rw [h0]
    have e : ∀ x : Rat, x / ((0 : Nat) : Rat) = 0 := by intro x; simp [Rat.div_def]
    rw [e, e]
    exact Rat.le_refl
  · have hpos : (0 : Rat) < ((dropna s).length : Rat) := by exact_mod_cast h0
    rw [← Rat.not_lt, Rat.div_lt_iff hpos, Rat.div_mul_cancel (by grind)]
    exact Rat.not_lt.mpr h1

theorem share_rest {s : List Val} {v w : Val} (hvw : v ≠ w) (hv : v ≠ .null) (hw : w ≠ .null) (h : 19 / 20 ≤ countShare s v) :
    countShare s w ≤ 1 / 20 := by
  unfold countShare at *
  have hle := count_add_count_le hvw hv hw s
  have hle' : (s.count v : Rat) + (s.count w : Rat) ≤ ((dropna s).length : Rat) := by exact_mod_cast hle
  have hpos : (0 : Rat) < ((dropna s).length : Rat) := by
    rcases Nat.eq_zero_or_pos (dropna s).length with h0 | h0
    · rw [h0] at h; exfalso
      have e : ((s.count v : Rat) / ((0 : Nat) : Rat)) = 0 := by simp [Rat.div_def]
      rw [e] at h
      exact absurd h (by decide +kernel)
    · exact_mod_cast h0
  generalize ((dropna s).length : Rat) = n at *
  have h1 : 19 / 20 * n ≤ (s.count v : Rat) := by
    rw [← Rat.not_lt, Rat.div_lt_iff hpos, Rat.not_lt] at h
    exact h
  have h2 : ¬ (1 / 20 < (s.count w : Rat) / n) := by
    rw [Rat.lt_div_iff hpos]; grind
  exact Rat.not_lt.mp h2

theorem countsIndex_spec (c : Counting) (hties : ∀ l, (c.ties l).Perm l) (e v : String) (hcat : c.categories e v = none) (s : List Val) :
    (countsIndex c e v s).Nodup ∧ (∀ w, w ∈ countsIndex c e v s ↔ w ∈ s ∧ w ≠ .null) ∧
    (countsIndex c e v s).Pairwise fun a b => s.count b ≤ s.count a := by
  have hperm : (countsIndex c e v s).Perm (dedup (dropna s)) := by
    unfold countsIndex
    rw [hcat]
    exact (isort_perm _ _).trans (hties _)
  have hsort := isort_sorted (fun a b => decide (s.count b ≤ s.count a)) (by intro a b; simp; omega) (by intro a b c; simp; omega)
    (c.ties ((c.categories e v).getD (dedup (dropna s))))
  refine ⟨hperm.nodup_iff.mpr (nodup_dedup _), fun w => ?_, hsort.imp (by intro a b h; simpa using h)⟩
  rw [hperm.mem_iff, mem_dedup, mem_dropna]

theorem numDistinct_unique {s : List Val} {n m : Nat} (hn : Spec.NumDistinct s n) (hm : Spec.NumDistinct s m) : n = m := by
  obtain ⟨a, ha, ha', rfl⟩ := hn
  obtain ⟨b, hb, hb', rfl⟩ := hm
  exact ((List.perm_ext_iff_of_nodup ha hb).mpr fun v => by rw [ha', hb']).length_eq

theorem mostCommon_take {s counts : List Val} (hnd : counts.Nodup) (hmem : ∀ w, w ∈ counts ↔ w ∈ s ∧ w ≠ .null)
    (hsort : counts.Pairwise fun a b => s.count b ≤ s.count a) (k : Nat) : Spec.MostCommon s (counts.take k) := by
  refine ⟨hnd.sublist (List.take_sublist _ _), fun v hv => (hmem v).mp (List.mem_of_mem_take hv),
    hsort.sublist (List.take_sublist _ _), fun v hv w hw hw' hnot => ?_⟩
  have h1 := (hmem w).mpr ⟨hw, hw'⟩
  rw [← List.take_append_drop k counts] at h1 hsort
  rcases List.mem_append.mp h1 with h1 | h1
  · exact absurd h1 hnot
  · exact (List.pairwise_append.mp hsort).2.2 v hv w h1

theorem interesting_column {s counts : List Val} (hnd : counts.Nodup) (hmem : ∀ w, w ∈ counts ↔ w ∈ s ∧ w ≠ .null)
    (hsort : counts.Pairwise fun a b => s.count b ≤ s.count a) (m : Nat) :
    Spec.InterestingValues m s (dedup (interestingLoop s (decide (counts.length < 25)) (counts.take m))) := by
  have hn : Spec.NumDistinct s counts.length := ⟨counts, hnd, hmem, rfl⟩
  have hshare : ∀ v, Spec.share s v = countShare s v := fun _ => rfl
  by_cases hfew : counts.length < 25
  · simp only [hfew, decide_true, interestingLoop_few]
    rw [dedup_of_nodup _ (hnd.sublist (List.take_sublist _ _))]
    refine ⟨mostCommon_take hnd hmem hsort m, by simp only [List.length_take]; omega, fun n hn' => ?_⟩
    rw [numDistinct_unique hn' hn]
    refine ⟨fun _ hlt v hv hv' => ?_, fun h => by omega⟩
    rw [List.length_take] at hlt
    rw [List.take_of_length_le (by omega)]
    exact (hmem v).mpr ⟨hv, hv'⟩
  · simp only [hfew, decide_false]
    obtain ⟨k, h1, h2, h3, h4⟩ := interestingLoop_prefix s (counts.take m)
    rw [List.length_take] at h2
    have hkm' : k ≤ m := by omega
    rw [List.take_take, Nat.min_eq_left hkm'] at h1 h3
    rw [h1]
    rw [dedup_of_nodup _ (hnd.sublist (List.take_sublist _ _))]
    refine ⟨mostCommon_take hnd hmem hsort k, by simp only [List.length_take]; omega, fun n hn' => ?_⟩
    rw [numDistinct_unique hn' hn]
    refine ⟨fun h => by omega, fun _ => ⟨h3, fun hlt v hv hv' hlo hhi => ?_⟩⟩
    rw [List.length_take] at hlt
    have hvc := (hmem v).mpr ⟨hv, hv'⟩
    obtain ⟨j, hj⟩ := List.getElem?_of_mem hvc
    have hjl : j < counts.length := (List.getElem?_eq_some_iff.mp hj).1
    by_cases hjk : j < k
    · refine List.mem_of_getElem? (i := j) ?_
      rw [List.getElem?_take_of_lt hjk, hj]
    · exfalso
      -- the value at `k` is out of range
      have hkm : k < m := by omega
      obtain ⟨u, hu⟩ : ∃ u, counts[k]? = some u := ⟨counts[k]'(by omega), List.getElem?_eq_getElem (by omega)⟩
      have hu' := h4 u (by rw [List.getElem?_take_of_lt hkm, hu])
      have hum := (hmem u).mp (List.mem_of_getElem? hu)
      have hle : s.count v ≤ s.count u := by
        rcases Nat.lt_or_eq_of_le (Nat.le_of_not_lt hjk) with hlt' | heq
        · obtain ⟨hk', rfl⟩ := List.getElem?_eq_some_iff.mp hu
          obtain ⟨hj', rfl⟩ := List.getElem?_eq_some_iff.mp hj
          exact List.pairwise_iff_getElem.mp hsort k j hk' hj' hlt'
        · subst heq; rw [hj] at hu; cases hu; exact Nat.le_refl _
      have hmono := share_mono hle
      rw [hshare] at hlo hhi
      have hbig : 19 / 20 ≤ countShare s u := by
        rcases Classical.em (19 / 20 ≤ countShare s u) with h | h
        · exact h
        · exact absurd ⟨by grind, by grind⟩ hu'
      by_cases huv : u = v
      · subst huv; grind
      · have := share_rest huv hum.2 hv' hbig; grind

theorem interestingVar_spec (c : Counting) (hties : ∀ l, (c.ties l).Perm l) (rels : List Relationship) (m : Int) (x : Entity) (v : Var)
    (hcat : c.categories x.id v.id = none) :
    ∃ out, interestingVar c rels m x v = { v with interesting := out } ∧ Spec.InterestingFor c rels m.toNat x v out := by
  have hlink : (rels.any fun r => (r.childE == x.id && r.childV == v.id) || (r.parentE == x.id && r.parentV == v.id)) = true ↔
      Spec.Linked rels x.id v.id := by
    simp [Spec.Linked]
  unfold interestingVar
  by_cases hd : c.discrete v.type = true
  · simp only [hd, Bool.not_true, Bool.false_eq_true, if_false]
    by_cases hl : Spec.Linked rels x.id v.id
    · rw [if_pos (hlink.mpr hl)]
      exact ⟨[], rfl, by simp [hd], fun _ _ => rfl, fun _ h => absurd hl h⟩
    · rw [if_neg (fun h => hl (hlink.mp h))]
      obtain ⟨h1, h2, h3⟩ := countsIndex_spec c hties x.id v.id hcat (x.df.rows.map fun r => r v.id)
      exact ⟨_, rfl, by simp [hd], fun _ h => absurd h hl, fun _ _ => interesting_column h1 h2 h3 _⟩
  · simp only [Bool.not_eq_true] at hd
    simp only [hd, Bool.not_false, if_true]
    exact ⟨v.interesting, rfl, fun _ => rfl, by simp [hd], by simp [hd]⟩

theorem modify_fold (c : Counting) (m : Int) (es : ESet) : ∀ (ids : List String) (es' : ESet), ids.Nodup → es'.rels = es.rels →
    ∃ cache, ids.foldl (fun es e => interestingEntity c m es e) es' =
      { es' with cache := cache, entities := es'.entities.map fun x => if x.id ∈ ids then { x with vars := x.vars.map (interestingVar c es.rels m x) } else x }
  | [], es', _, _ => ⟨es'.cache, by simp⟩
  | e :: ids, es', hnd, hr => by
    obtain ⟨hnot, hnd'⟩ := List.nodup_cons.mp hnd
    obtain ⟨cache, h⟩ := modify_fold c m es ids (interestingEntity c m es' e) hnd' (by simp [interestingEntity, ESet.modify, hr])
    refine ⟨cache, ?_⟩
    rw [List.foldl_cons, h]
    simp only [interestingEntity, ESet.modify, List.map_map, ESet.mk.injEq, and_true]
    apply List.map_congr_left
    intro x _
    simp only [Function.comp, List.mem_cons, beq_iff_eq]
    by_cases hx : x.id = e
    · subst hx; simp [hnot, hr]
    · simp [hx]

/-- C56: `add_interesting_values` leaves everything but interesting values alone. A discrete variable outside relationships
gets up to `max_values` of the most common values of its column, most frequent first; with 25 or more different values, only
those with a share strictly between 5% and 95%. One in a relationship gets none, and other variables keep theirs. Partial:
columns of dtype category are left out, see `C56_categories_violated`. -/
theorem C56_interesting_partial (c : Counting) (hties : ∀ l, (c.ties l).Perm l) (max : Int) (es : ESet)
    (hids : (es.entities.map Entity.id).Nodup)
    (hcat : ∀ x ∈ es.entities, ∀ v ∈ x.vars, c.categories x.id v.id = none) :
    (addInterestingValues c max es).rels = es.rels ∧ (addInterestingValues c max es).timeType = es.timeType ∧
    (addInterestingValues c max es).cache = none ∧ (addInterestingValues c max es).entities.length = es.entities.length ∧
    ∀ (i : Nat) (x : Entity), es.entities[i]? = some x → ∃ vars, (addInterestingValues c max es).entities[i]? = some { x with vars := vars } ∧
      vars.length = x.vars.length ∧ ∀ (j : Nat) (v : Var), x.vars[j]? = some v →
        ∃ out, vars[j]? = some { v with interesting := out } ∧ Spec.InterestingFor c es.rels max.toNat x v out := by
  obtain ⟨cache, h⟩ := modify_fold c max es (es.entities.map Entity.id) es hids rfl
  unfold addInterestingValues
  rw [h]
  refine ⟨rfl, rfl, rfl, by simp, fun i x hx => ?_⟩
  have hmem := List.mem_of_getElem? hx
  refine ⟨x.vars.map (interestingVar c es.rels max x), ?_, by simp, fun j v hv => ?_⟩
  · simp only [List.getElem?_map, hx, Option.map_some]
    rw [if_pos (List.mem_map.mpr ⟨x, hmem, rfl⟩)]
  · obtain ⟨out, h1, h2⟩ := interestingVar_spec c hties es.rels max x v (hcat x hmem v (List.mem_of_getElem? hv))
    exact ⟨out, by simp [hv, h1], h2⟩

/-- C56: the same for a single entity: only its interesting values change, and metadata read later has them. -/
theorem C56_entity_partial (c : Counting) (hties : ∀ l, (c.ties l).Perm l) (max : Int) (es : ESet) (e : String)
    (hcat : ∀ x ∈ es.entities, ∀ v ∈ x.vars, c.categories x.id v.id = none) :
    (interestingEntity c max es e).rels = es.rels ∧ (interestingEntity c max es e).timeType = es.timeType ∧
    (readMetadata (interestingEntity c max es e)).2 = describe (interestingEntity c max es e) ∧
    (interestingEntity c max es e).entities.length = es.entities.length ∧
    ∀ (i : Nat) (x : Entity), es.entities[i]? = some x → ∃ vars, (interestingEntity c max es e).entities[i]? = some { x with vars := vars } ∧
      (x.id ≠ e → vars = x.vars) ∧ vars.length = x.vars.length ∧ (x.id = e → ∀ (j : Nat) (v : Var), x.vars[j]? = some v →
        ∃ out, vars[j]? = some { v with interesting := out } ∧ Spec.InterestingFor c es.rels max.toNat x v out) := by
  refine ⟨rfl, rfl, rfl, by simp [interestingEntity, ESet.modify], fun i x hx => ?_⟩
  have hmem := List.mem_of_getElem? hx
  by_cases he : x.id = e
  · refine ⟨x.vars.map (interestingVar c es.rels max x), by simp [interestingEntity, ESet.modify, hx, he], fun h => absurd he h, by simp,
      fun _ j v hv => ?_⟩
    obtain ⟨out, h1, h2⟩ := interestingVar_spec c hties es.rels max x v (hcat x hmem v (List.mem_of_getElem? hv))
    exact ⟨out, by simp [hv, h1], h2⟩
  · exact ⟨x.vars, by simp [interestingEntity, ESet.modify, hx, he], fun _ => rfl, rfl, fun h => absurd h he⟩

namespace InterestingExample
/-- Values of a column: `a` twice, `b` once. -/
def rows : List Row := [fun _ => .str "a", fun _ => .null, fun _ => .str "b", fun _ => .str "a"]
/-- An entity with one discrete variable. -/
def items : Entity := { id := "items", index := "i", timeIndex := none, secondary := [], created := none, vars := [{ id := "kind", type := "categorical", name := none, desc := none, interesting := [] }], df := { cols := ["kind"], rows := rows, dtype := fun _ => "object" }, lti := none }
/-- The entity set. -/
def shop : ESet := { entities := [items], rels := [], timeType := none, cache := none }
/-- No categories. -/
def plain : Counting := ⟨fun t => t == "categorical", fun _ _ => none, id⟩
/-- The same with a category that does not occur. -/
def withCats : Counting := ⟨fun t => t == "categorical", fun _ _ => some [.str "a", .str "b", .str "c"], id⟩
end InterestingExample
open InterestingExample

example : (addInterestingValues plain 5 shop).entities.map (fun x => x.vars.map Var.interesting) = [[[.str "a", .str "b"]]] := by decide
example : (addInterestingValues plain 1 shop).entities.map (fun x => x.vars.map Var.interesting) = [[[.str "a"]]] := by decide
example : (shop.entities.map Entity.id).Nodup ∧ ∀ x ∈ shop.entities, ∀ v ∈ x.vars, plain.categories x.id v.id = none := by decide

/-- C56 does not hold for columns of dtype category: a category that no row has becomes an interesting value. -/
theorem C56_categories_violated : ∃ (c : Counting) (es : ESet) (x : Entity) (v : Var) (w : Val), x ∈ (addInterestingValues c 5 es).entities ∧
    v ∈ x.vars ∧ w ∈ v.interesting ∧ w ∉ x.df.rows.map fun r => r v.id :=
  ⟨withCats, shop, (addInterestingValues withCats 5 shop).entities.head (by decide), ((addInterestingValues withCats 5 shop).entities.head (by decide)).vars.head (by decide),
    .str "c", by simp, by simp, by decide, by decide⟩

end FT
