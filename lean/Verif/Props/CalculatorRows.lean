import Verif.Lemmas.CalcExample2
import Verif.Props.Calculator
/-!
# C28–C30 for single steps, and where the calculator departs from the definition

The first part holds for arbitrary frames and features, regular or not.  The second part shows, on concrete entity sets,
what happens outside `Spec.Regular`.
-/
namespace FT
open Spec

/-- `out` is `t` with only the cells of the given columns changed: same number of rows, in the same order. -/
def Spec.OnlyColumns (names : List String) (t out : Table) : Prop :=
  out.rows.length = t.rows.length ∧
  (∀ (i : Nat) (r r' : Row), t.rows[i]? = some r → out.rows[i]? = some r' → ∀ c, c ∉ names → r' c = r c) ∧
  (∀ c, c ∈ out.cols → c ∈ t.cols ∨ c ∈ names) ∧ ∀ c ∈ t.cols, c ∈ out.cols

theorem put_other (r : Row) (cells : List (String × Val)) (c : String) (h : ∀ x ∈ cells, x.1 ≠ c) : r.put cells c = r c := by
  unfold Row.put
  have : cells.reverse.lookup c = none := by
    rw [List.lookup_eq_none_iff]
    intro x hx
    simp only [List.mem_reverse] at hx
    simpa using (h x hx).symm
  rw [this]

theorem fillRow_other (fs : List Feat) (r : Row) (c : String) (h : c ∉ fs.flatMap Feat.names) : fillRow fs r c = r c := by
  unfold fillRow
  have : (fs.flatMap fun f => f.names.map fun n => (n, f.dflt)).reverse.lookup c = none := by
    rw [List.lookup_eq_none_iff]
    intro x hx
    simp only [List.mem_reverse, List.mem_flatMap, List.mem_map] at hx
    obtain ⟨f, hf, n, hn, rfl⟩ := hx
    simp only [beq_eq_false_iff_ne, ne_eq, bne_iff_ne]
    rintro rfl
    exact h (List.mem_flatMap.mpr ⟨f, hf, hn⟩)
  rw [this]

theorem onlyColumns_map {names : List String} {t : Table} {cols : List String} {g : Row → Row}
    (hg : ∀ r c, c ∉ names → g r c = r c) (hc : ∀ c, c ∈ cols → c ∈ t.cols ∨ c ∈ names) (hc' : ∀ c ∈ t.cols, c ∈ cols) :
    OnlyColumns names t { cols := cols, rows := t.rows.map g } := by
  refine ⟨by simp, ?_, hc, hc'⟩
  intro i r r' h h' c hcn
  simp only [List.getElem?_map, h, Option.map_some, Option.some.injEq] at h'
  rw [← h', hg r c hcn]

theorem lastPerBase_subset (l : List (String × String)) : ∀ x ∈ lastPerBase l, x ∈ l := by
  induction l with
  | nil => simp [lastPerBase]
  | cons a l ih =>
    intro x hx
    simp only [lastPerBase] at hx
    split at hx
    · exact List.mem_cons_of_mem _ (ih x hx)
    · rcases List.mem_cons.mp hx with rfl | hx
      · exact List.mem_cons_self
      · exact List.mem_cons_of_mem _ (ih x hx)

/-- C29. Computing direct features keeps the child rows: number, order and all other columns. -/
theorem C29_rows_unchanged (fs : List Feat) (child out : Table) (dfs : DTrie) (h : calcDirect fs child dfs = .ok out) :
    OnlyColumns (fs.flatMap Feat.names) child out := by
  unfold calcDirect at h
  split at h
  · rename_i fwd rel _
    split at h
    · cases h
    · rename_i parent _
      simp only at h
      split at h
      · cases h
        have hpn : ∀ x ∈ lastPerBase (fs.flatMap (directPairs child)), x.1 ∈ fs.flatMap Feat.names := by
          intro x hx
          obtain ⟨f, hf, hx⟩ := List.mem_flatMap.mp (lastPerBase_subset _ x hx)
          refine List.mem_flatMap.mpr ⟨f, hf, ?_⟩
          unfold directPairs at hx
          split at hx
          · exact (List.of_mem_zip (List.mem_filter.mp hx).1).1
          · cases hx
        refine onlyColumns_map ?_ ?_ ?_
        · intro r c hc
          rw [fillRow_other fs _ c hc, put_other]
          intro x hx
          unfold mergedCells at hx
          have : ∃ y ∈ lastPerBase (fs.flatMap (directPairs child)), y.1 = x.1 := by
            split at hx <;>
            · obtain ⟨y, hy, rfl⟩ := List.mem_map.mp hx
              exact ⟨y, hy, rfl⟩
          obtain ⟨y, hy, hyx⟩ := this
          rintro rfl
          exact hc (hyx ▸ hpn y hy)
        · intro c hc
          rcases (mem_addCols _ _ _).mp hc with h | h
          · exact .inl h
          · obtain ⟨x, hx, rfl⟩ := List.mem_map.mp h
            exact .inr (hpn x hx)
        · intro c hc; exact (mem_addCols _ _ _).mpr (.inl hc)
      · cases h
  · cases h

/-- C30. Computing group-by transform features keeps the rows: number, order and all other columns. -/
theorem C30_rows_unchanged (env : Env) (idx : String) (fs : List Feat) (t out : Table) (h : calcGroupby env idx fs t = .ok out) :
    OnlyColumns (fs.flatMap Feat.names) t out := by
  have hset : ∀ (r : Row) (c : String), c ∉ fs.flatMap Feat.names →
      r.put (fs.flatMap fun f => f.names.map fun n => (n, f.dflt)) c = r c := by
    intro r c hc
    apply put_other
    intro x hx
    simp only [List.mem_flatMap, List.mem_map] at hx
    obtain ⟨f, hf, n, hn, rfl⟩ := hx
    rintro rfl
    exact hc (List.mem_flatMap.mpr ⟨f, hf, hn⟩)
  have hcols : (∀ c, c ∈ addCols t.cols (fs.flatMap Feat.names) → c ∈ t.cols ∨ c ∈ fs.flatMap Feat.names) ∧
      ∀ c ∈ t.cols, c ∈ addCols t.cols (fs.flatMap Feat.names) :=
    ⟨fun c hc => (mem_addCols _ _ _).mp hc, fun c hc => (mem_addCols _ _ _).mpr (.inl hc)⟩
  unfold calcGroupby at h
  simp only at h
  split at h
  · cases h
    exact onlyColumns_map hset hcols.1 hcols.2
  · split at h
    · cases h
    · rename_i grp _
      split at h
      · rename_i series hser
        cases h
        simp only [setDefaults, List.map_map]
        refine onlyColumns_map ?_ hcols.1 hcols.2
        intro r c hc
        simp only [Function.comp, updateCells]
        have : series.reverse.lookup c = none := by
          rw [List.lookup_eq_none_iff]
          intro x hx
          simp only [List.mem_reverse] at hx
          have hxn : x.1 ∈ fs.flatMap Feat.names := by
            have key : ∀ (l : List Feat) (s : List (String × List (Val × Val))),
                concatCells (groupCells env idx grp.name (setDefaults fs t)) l = .ok s → ∀ x ∈ s, x.1 ∈ l.flatMap Feat.names := by
              intro l
              induction l with
              | nil => intro s hs; cases hs; simp
              | cons f l ih =>
                intro s hs
                simp only [concatCells] at hs
                split at hs
                · rename_i a b ha hb
                  cases hs
                  intro x hx
                  rw [List.flatMap_cons, List.mem_append]
                  rcases List.mem_append.mp hx with hx | hx
                  · left
                    unfold groupCells at ha
                    split at ha
                    · cases ha
                    · split at ha
                      · split at ha
                        · cases ha
                          obtain ⟨k, hk, hx⟩ := List.mem_mapIdx.mp hx
                          rw [← hx]
                          exact List.getElem_mem hk
                        · cases ha
                      · cases ha
                  · exact .inr (ih b hb x hx)
                · cases hs
                · cases hs
            exact key fs series hser x hx
          simp only [beq_eq_false_iff_ne, ne_eq, bne_iff_ne]
          rintro rfl
          exact hc hxn
        rw [this]
        exact hset r c hc
      · cases h

/-- C28. Computing aggregations keeps the rows of the parent frame: number, order and all other columns. -/
theorem C28_rows_unchanged (env : Env) (idx : String) (fs : List Feat) (frame out : Table) (dfs : DTrie)
    (h : calcAgg env idx fs frame dfs = .ok out) : OnlyColumns (fs.flatMap Feat.names) frame out := by
  have hsame : OnlyColumns (fs.flatMap Feat.names) frame frame :=
    ⟨rfl, fun i r r' h h' c _ => by rw [h] at h'; cases h'; rfl, fun c hc => .inl hc, fun c hc => hc⟩
  unfold calcAgg at h
  split at h
  · cases h
  · rename_i test rest
    simp only at h
    generalize hfl : ((test :: rest).filter fun f => f.names.any fun n => !frame.cols.contains n) = fl at h
    have hsub : ∀ c, c ∈ fl.flatMap Feat.names → c ∈ (test :: rest).flatMap Feat.names := by
      intro c hc
      obtain ⟨f, hf, hc⟩ := List.mem_flatMap.mp hc
      rw [← hfl] at hf
      exact List.mem_flatMap.mpr ⟨f, (List.mem_filter.mp hf).1, hc⟩
    have hcols : (∀ c, c ∈ addCols frame.cols (fl.flatMap Feat.names) → c ∈ frame.cols ∨ c ∈ (test :: rest).flatMap Feat.names) ∧
        ∀ c ∈ frame.cols, c ∈ addCols frame.cols (fl.flatMap Feat.names) :=
      ⟨fun c hc => ((mem_addCols _ _ _).mp hc).imp id (hsub c), fun c hc => (mem_addCols _ _ _).mpr (.inl hc)⟩
    split at h
    · cases h; exact hsame
    · split at h
      · cases h
      · split at h
        · cases h
        · split at h
          · cases h
            refine onlyColumns_map ?_ hcols.1 hcols.2
            intro r c hc
            rw [fillRow_other fl _ c fun hm => hc (hsub c hm), put_other]
            intro x hx
            obtain ⟨f, hf, hx⟩ := List.mem_flatMap.mp hx
            obtain ⟨n, hn, rfl⟩ := List.mem_map.mp hx
            rintro rfl
            exact hc (hsub _ (List.mem_flatMap.mpr ⟨f, hf, hn⟩))
          · unfold aggRows at h
            simp only at h
            split at h
            · split at h
              · cases h
                refine onlyColumns_map ?_ hcols.1 hcols.2
                intro r c hc
                rw [fillRow_other fl _ c fun hm => hc (hsub c hm), put_other]
                intro x hx
                obtain ⟨f, hf, hx⟩ := List.mem_flatMap.mp hx
                rintro rfl
                refine hc (hsub _ (List.mem_flatMap.mpr ⟨f, hf, ?_⟩))
                unfold aggCells at hx
                split at hx
                · simp only at hx
                  split at hx
                  · obtain ⟨n, hn, rfl⟩ := List.mem_map.mp hx; exact hn
                  · obtain ⟨k, hk, hx⟩ := List.mem_mapIdx.mp hx
                    rw [← hx]; exact List.getElem_mem hk
                · cases hx
              · cases h
            · cases h

/-! ## Outside the regular computations -/

namespace CalcExample

/-- A renamed identity feature. -/
def renamed : Feat := .mk { entity := "sessions", name := "amt", names := ["amt"], dflt := .null, kind := .identity "amount" } [] []
/-- A renamed copy of a direct feature. -/
def lookup2 : Feat := .mk { entity := "sessions", name := "copy", names := ["copy"], dflt := .null, kind := .direct rel } [total] []
/-- An aggregation of two columns which gives the number of its arguments. -/
def arity : AggPrim := { usesCalcTime := false, fn := fun _ args => [.num args.length] }
/-- An aggregation of two base features, the second of which is also the condition. -/
def cond : Feat := .mk { entity := "customers", name := "F", names := ["F"], dflt := .null, kind := .agg [rel] arity none true } [amount, Agg.isBig] [Agg.isBig]

end CalcExample

/-- C24 fails for renamed identity features: the computation stops with an `AssertionError`. -/
theorem C24_renamed_identity_error :
    runCalc CalcExample.env [CalcExample.renamed] (Trie.new []) (Trie.new none) "sessions" [.num 10] = .error .assertionError := by
  decide

/-- C29 fails for two direct features with one base (a feature and its renamed copy): one column is lost, a `KeyError`. -/
theorem C29_same_base_twice_error :
    runCalc CalcExample.env [CalcExample.lookup, CalcExample.lookup2] (Trie.new []) (Trie.new none) "sessions" [.num 10] = .error .keyError ∧
    runCalc CalcExample.env [CalcExample.lookup2] (Trie.new []) (Trie.new none) "sessions" [.num 10] = .ok [(.num 10, [.num 12])] := by
  decide

/-- C28 fails when the condition is also one of two base features: the primitive is given the first base only. -/
theorem C28_condition_as_base_dropped :
    runCalc CalcExample.env [CalcExample.cond] (Trie.new []) (Trie.new none) "customers" [.num 1] = .ok [(.num 1, [.num 1])] ∧
    meaning (worldOf CalcExample.env) CalcExample.cond (.num 1) = [.num 2] := by
  decide

namespace CalcExample.Deep
/-- Two relationships between one pair of entities, below another relationship. -/
def r1 : Relationship := { parentE := "c", parentV := "id", childE := "s", childV := "c_id" }
def r2 : Relationship := { parentE := "s", parentV := "id", childE := "l", childV := "first" }
def r3 : Relationship := { parentE := "s", parentV := "id", childE := "l", childV := "last" }

def table (cols : List String) (rows : List (List Val)) : Table := { cols := cols, rows := rows.map fun r => row (cols.zip r) }
def ent (id : String) (t : Table) : Ent := { id := id, index := "id", timeIndex := none, secondary := [], lti := none, df := t }

def env : Env :=
  { rels := [r1, r2, r3]
    ent := fun e =>
      if e = "c" then some (ent "c" (table ["id"] [[.num 1]]))
      else if e = "s" then some (ent "s" (table ["id", "c_id"] [[.num 10, .num 1]]))
      else if e = "l" then some (ent "l" (table ["id", "first", "last", "x"] [[.num 100, .num 10, .num 10, .num 7]])) else none
    keyCols := fun e => if e = "c" then ["id"] else if e = "s" then ["id", "c_id"] else ["id", "first", "last"]
    timeLast := 0, window := none, includeCutoff := true, minus := fun t _ => t }

def x : Feat := .mk { entity := "l", name := "x", names := ["x"], dflt := .null, kind := .identity "x" } [] []
def deepSum : Feat := .mk { entity := "c", name := "SUM(s.l[first].x)", names := ["SUM(s.l[first].x)"], dflt := .num 0, kind := .agg [r1, r2] CalcExample.sum none true } [x] []
end CalcExample.Deep

/-- C28 fails for a path of several relationships with two relationships between one pair of entities after the first
step: a `KeyError`, although the definition gives 7. -/
theorem C28_two_relationships_error :
    runCalc CalcExample.Deep.env [CalcExample.Deep.deepSum] (Trie.new []) (Trie.new none) "c" [.num 1] = .error .keyError ∧
    meaning (worldOf CalcExample.Deep.env) CalcExample.Deep.deepSum (.num 1) = [.num 7] ∧
    runCalc { CalcExample.Deep.env with rels := [CalcExample.Deep.r1, CalcExample.Deep.r2] } [CalcExample.Deep.deepSum]
      (Trie.new []) (Trie.new none) "c" [.num 1] = .ok [(.num 1, [.num 7])] := by
  decide

end FT
