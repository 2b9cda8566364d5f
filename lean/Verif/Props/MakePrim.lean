import Verif.Lemmas.MakePrim
/-! # C69: Primitives made from functions do what the function does -/
namespace FT
open Spec

theorem lookup_setAttr (cls : List (String × PyObj)) (k y : String) (x : PyObj) (h : ¬ k = y) : (setAttr cls y x).lookup k = cls.lookup k := by
  unfold setAttr
  rw [List.lookup_cons, beq_eq_false_iff_ne.mpr h]

/-- A Python function is called with what it receives; if this is not possible, there is a `TypeError`. -/
theorem C69_python_call (f : PyFun) (hn : (f.params.map Prod.fst).Nodup) (pos : List PyArg) (kw : List (String × PyArg)) :
    (∀ args, Receives f.params pos kw args → f.call pos kw = f.body args) ∧
    ((¬ ∃ args, Receives f.params pos kw args) → f.call pos kw = .error .typeError) := call_spec f hn pos kw

/-- A function with a parameter called `time` is refused exactly if the primitive is not declared to use the time; every other
function gives a primitive class. -/
theorem C69_time (kind : MadeKind) (a : MakeArgs) :
    (a.usesCalcTime = false ∧ (∃ d, ("time", d) ∈ a.function.params) → makePrimitive kind a = .error .valueError) ∧
    (¬ (a.usesCalcTime = false ∧ ∃ d, ("time", d) ∈ a.function.params) → ∃ c, makePrimitive kind a = .ok c) := by
  rcases inspectArgs_spec a.usesCalcTime a.function.params with ⟨h1, h2, he⟩ | ⟨h1, t, kw, he, ht, rfl⟩
  · refine ⟨fun _ => ?_, fun h => absurd ⟨h1, h2⟩ h⟩
    cases kind <;> simp only [makePrimitive, makeAggPrimitive, makeTransPrimitive, he]
  · refine ⟨fun h => absurd h h1, fun _ => ?_⟩
    cases kind <;> simp only [makePrimitive, makeAggPrimitive, makeTransPrimitive, he] <;> exact ⟨_, rfl⟩

/-- The primitive gets the time exactly if the function has a parameter for it, unless the class attributes say so. -/
theorem C69_uses_calc_time (kind : MadeKind) (a : MakeArgs) (c : MadeClass) (h : makePrimitive kind a = .ok c)
    (hc : a.clsAttributes.lookup "uses_calc_time" = none) :
    ((∃ d, ("time", d) ∈ a.function.params) → c.attr "uses_calc_time" = some (.val (.bool true))) ∧
    ((¬ ∃ d, ("time", d) ∈ a.function.params) → c.attr "uses_calc_time" = some (.val (.bool false))) := by
  rcases inspectArgs_spec a.usesCalcTime a.function.params with ⟨h1, h2, he⟩ | ⟨h1, t, kw, he, ht, rfl⟩
  · cases kind <;> simp only [makePrimitive, makeAggPrimitive, makeTransPrimitive, he] at h <;> cases h
  · rw [← ht]
    have hb : ∀ d : String, (kwUpdate [("__doc__", PyObj.val (.str d))] a.clsAttributes).lookup "uses_calc_time" = none := by
      intro d
      rw [lookup_kwUpdate, hc]
      simp [List.lookup_cons]
    cases kind <;> simp only [makePrimitive, makeAggPrimitive, makeTransPrimitive, he] at h <;> cases h <;> cases t <;>
      cases inferDefault a <;> simp [MadeClass.attr, setAttr, List.lookup_cons, hb, baseAttr]

/-- The arguments arrive as attributes of the class. An attribute among the class attributes is there, unless it is one of these. -/
theorem C69_attributes_agg (a : MakeArgs) (c : MadeClass) (h : makeAggPrimitive a = .ok c) :
    c.attr "input_types" = some a.inputTypes ∧ c.attr "return_type" = some a.returnType ∧
    c.attr "stack_on" = some a.stackOn ∧ c.attr "stack_on_exclude" = some a.stackOnExclude ∧
    c.attr "stack_on_self" = some (.val (.bool a.stackOnSelf)) ∧ c.attr "base_of" = some a.baseOf ∧
    c.attr "base_of_exclude" = some a.baseOfExclude ∧ c.attr "commutative" = some (.val (.bool a.commutative)) ∧
    c.attr "number_output_features" = some (.val (.num a.numberOutputFeatures)) ∧
    ∀ k v, k ∉ ["name", "input_types", "return_type", "stack_on", "stack_on_exclude", "stack_on_self", "base_of", "base_of_exclude",
      "commutative", "number_output_features", "uses_calc_time", "default_value"] → a.clsAttributes.lookup k = some v → c.attr k = some v := by
  rcases inspectArgs_spec a.usesCalcTime a.function.params with ⟨h1, h2, he⟩ | ⟨h1, t, kw, he, ht, rfl⟩
  · simp only [makeAggPrimitive, he] at h; cases h
  · simp only [makeAggPrimitive, he] at h
    cases h
    refine ⟨?_, ?_, ?_, ?_, ?_, ?_, ?_, ?_, ?_, ?_⟩
    rotate_left 9
    intro k v hk hv
    simp only [List.mem_cons, List.not_mem_nil, or_false, not_or] at hk
    have hb : ∀ d : String, (kwUpdate [("__doc__", PyObj.val (.str d))] a.clsAttributes).lookup k = some v := by
      intro d
      rw [lookup_kwUpdate, hv]
      rfl
    · cases t <;> cases inferDefault a <;> simp [MadeClass.attr, lookup_setAttr, hk, hb]
    all_goals cases t <;> cases inferDefault a <;> simp [MadeClass.attr, setAttr, List.lookup_cons]

/-- The same for transform primitives. -/
theorem C69_attributes_trans (a : MakeArgs) (c : MadeClass) (h : makeTransPrimitive a = .ok c) :
    c.attr "input_types" = some a.inputTypes ∧ c.attr "return_type" = some a.returnType ∧
    c.attr "commutative" = some (.val (.bool a.commutative)) ∧
    c.attr "number_output_features" = some (.val (.num a.numberOutputFeatures)) ∧
    ∀ k v, k ∉ ["name", "input_types", "return_type", "commutative", "number_output_features", "uses_calc_time"] →
      a.clsAttributes.lookup k = some v → c.attr k = some v := by
  rcases inspectArgs_spec a.usesCalcTime a.function.params with ⟨h1, h2, he⟩ | ⟨h1, t, kw, he, ht, rfl⟩
  · simp only [makeTransPrimitive, he] at h; cases h
  · simp only [makeTransPrimitive, he] at h
    cases h
    refine ⟨?_, ?_, ?_, ?_, ?_⟩
    rotate_left 4
    intro k v hk hv
    simp only [List.mem_cons, List.not_mem_nil, or_false, not_or] at hk
    have hb : ∀ d : String, (kwUpdate [("__doc__", PyObj.val (.str d))] a.clsAttributes).lookup k = some v := by
      intro d
      rw [lookup_kwUpdate, hv]
      rfl
    · cases t <;> simp [MadeClass.attr, lookup_setAttr, hk, hb]
    all_goals cases t <;> simp [MadeClass.attr, setAttr, List.lookup_cons]

/-- The name is the given one, or else that of the function; an empty name counts as none. The documentation is the given one, or else
that of the function, or else a fixed text, unless it is among the class attributes. -/
theorem C69_name (kind : MadeKind) (a : MakeArgs) (c : MadeClass) (h : makePrimitive kind a = .ok c) :
    (∀ n, a.name = some n → n ≠ "" → c.attr "name" = some (.val (.str n))) ∧
    (a.name = none ∨ a.name = some "" → c.attr "name" = some (.val (.str a.function.name))) ∧
    (a.clsAttributes.lookup "__doc__" = none →
      (∀ d, a.description = some d → c.attr "__doc__" = some (.val (.str d))) ∧
      (∀ d, a.description = none → a.function.doc = some d → c.attr "__doc__" = some (.val (.str d))) ∧
      (a.description = none → a.function.doc = none →
        c.attr "__doc__" = some (.val (.str (if kind = .agg then "A custom primitive" else "A custom transform primitive"))))) := by
  have hname : c.attr "name" = some (.val (.str (madeName a))) := by
    rcases inspectArgs_spec a.usesCalcTime a.function.params with ⟨h1, h2, he⟩ | ⟨h1, t, kw, he, ht, rfl⟩
    · cases kind <;> simp only [makePrimitive, makeAggPrimitive, makeTransPrimitive, he] at h <;> cases h
    · cases kind <;> simp only [makePrimitive, makeAggPrimitive, makeTransPrimitive, he] at h <;> cases h <;> cases t <;>
        cases inferDefault a <;> simp [MadeClass.attr, setAttr, List.lookup_cons]
  have hdoc : a.clsAttributes.lookup "__doc__" = none → c.attr "__doc__" = some (.val (.str (madeDoc kind a))) := by
    intro hd
    have hb : ∀ d : String, (kwUpdate [("__doc__", PyObj.val (.str d))] a.clsAttributes).lookup "__doc__" = some (.val (.str d)) := by
      intro d
      rw [lookup_kwUpdate, hd]
      simp [List.lookup_cons]
    rcases inspectArgs_spec a.usesCalcTime a.function.params with ⟨h1, h2, he⟩ | ⟨h1, t, kw, he, ht, rfl⟩
    · cases kind <;> simp only [makePrimitive, makeAggPrimitive, makeTransPrimitive, he] at h <;> cases h
    · cases kind <;> simp only [makePrimitive, makeAggPrimitive, makeTransPrimitive, he] at h <;> cases h <;> cases t <;>
        cases inferDefault a <;> simp [MadeClass.attr, setAttr, List.lookup_cons, hb]
  refine ⟨?_, ?_, fun hd => ⟨?_, ?_, ?_⟩⟩
  · intro n hn hne
    rw [hname]
    unfold madeName
    rw [hn]
    split
    · next e => cases e; exact absurd rfl hne
    · next e => cases e; rfl
    · next e => cases e
  · intro hn
    rw [hname]
    unfold madeName
    rcases hn with hn | hn <;> rw [hn]
    rfl
  · intro d e
    rw [hdoc hd]
    simp [madeDoc, e]
  · intro d e e'
    rw [hdoc hd]
    simp [madeDoc, e, e']
  · intro e e'
    rw [hdoc hd]
    cases kind <;> simp [madeDoc, e, e']

/-- The value for instances without data is the given one, or else what the function gives for empty columns, or else missing. -/
theorem C69_default_value (a : MakeArgs) (c : MadeClass) (h : makeAggPrimitive a = .ok c) (hn : (a.function.params.map Prod.fst).Nodup)
    (hc : a.clsAttributes.lookup "default_value" = none) :
    (∀ v, a.defaultValue = some v → c.attr "default_value" = some (.val v)) ∧
    (a.defaultValue = none → ∀ args v, Receives a.function.params (List.replicate a.numInputs (.col [])) [] args →
      a.function.body args = .ok v → c.attr "default_value" = some (.val v)) ∧
    (a.defaultValue = none → (∀ args v, Receives a.function.params (List.replicate a.numInputs (.col [])) [] args →
      a.function.body args ≠ .ok v) → c.attr "default_value" = some (.val .null)) := by
  have hattr : c.attr "default_value" = some (.val ((inferDefault a).getD .null)) := by
    have hb : ∀ d : String, (kwUpdate [("__doc__", PyObj.val (.str d))] a.clsAttributes).lookup "default_value" = none := by
      intro d
      rw [lookup_kwUpdate, hc]
      simp [List.lookup_cons]
    rcases inspectArgs_spec a.usesCalcTime a.function.params with ⟨h1, h2, he⟩ | ⟨h1, t, kw, he, ht, rfl⟩
    · simp only [makeAggPrimitive, he] at h; cases h
    · simp only [makeAggPrimitive, he] at h
      cases h
      cases t <;> cases inferDefault a <;> simp [MadeClass.attr, setAttr, List.lookup_cons, hb, baseAttr]
  have hcall := call_spec a.function hn (List.replicate a.numInputs (.col [])) []
  rw [hattr]
  refine ⟨?_, ?_, ?_⟩
  · intro v hv
    simp [inferDefault, hv]
  · intro hv args v hr hb
    simp [inferDefault, hv, hcall.1 args hr, hb]
  · intro hv hno
    unfold inferDefault
    rw [hv]
    simp only
    cases hx : a.function.call (List.replicate a.numInputs (.col [])) [] with
    | error e => rfl
    | ok v =>
      exfalso
      by_cases hr : ∃ args, Receives a.function.params (List.replicate a.numInputs (.col [])) [] args
      · obtain ⟨args, hr⟩ := hr
        exact hno args v hr ((hcall.1 args hr).symm.trans hx)
      · rw [hcall.2 hr] at hx
        cases hx

/-- Calling a primitive made from a function is calling the function: with the columns, the keywords of the call (such as the
time), those the primitive was built with and the defaults, in this order. Missing: parameters that take a column and have a
default. -/
theorem C69_call_partial (kind : MadeKind) (a : MakeArgs) (c : MadeClass) (hm : makePrimitive kind a = .ok c)
    (hn : (a.function.params.map Prod.fst).Nodup) (kw : List (String × Val)) (i : MadeInst) (hi : c.new [] kw = .ok i)
    (columns : List PyArg) (hcol : ColumnsRequired a.function columns.length) (given : List (String × PyArg)) :
    (∀ args, Receives a.function.params columns (given ++ plainKw kw) args → i.call columns given = a.function.body args) ∧
    ((¬ ∃ args, Receives a.function.params columns (given ++ plainKw kw) args) → i.call columns given = .error .typeError) := by
  obtain ⟨hk, hf, hd⟩ := make_ok kind a c hm
  have hi' : i = ⟨c, kwUpdate c.defaults kw⟩ := by
    unfold MadeClass.new at hi
    split at hi
    · next he =>
      split at hi
      · next hp =>
        cases hi
        simp at hp he
        rw [hp, he]
        rfl
      · cases hi
    · split at hi
      · simp at hi; exact hi.symm
      · cases hi; rfl
  have hcall := call_spec a.function hn columns (kwUpdate (plainKw (kwUpdate c.defaults kw)) given)
  have e : i.call columns given = a.function.call columns (kwUpdate (plainKw (kwUpdate c.defaults kw)) given) := by
    rw [hi']
    unfold MadeInst.call
    simp only
    rw [hf]
    rfl
  rw [e]
  have hR : ∀ args, Receives a.function.params columns (given ++ plainKw kw) args ↔
      Receives a.function.params columns (kwUpdate (plainKw (kwUpdate c.defaults kw)) given) args := by
    intro args
    unfold Receives
    have hkeys : (∀ k v, (k, v) ∈ given ++ plainKw kw → ∃ (i : Nat) (d : Option Val), columns.length ≤ i ∧ a.function.params[i]? = some (k, d)) ↔
        (∀ k v, (k, v) ∈ kwUpdate (plainKw (kwUpdate c.defaults kw)) given → ∃ (i : Nat) (d : Option Val), columns.length ≤ i ∧ a.function.params[i]? = some (k, d)) := by
      constructor
      · intro h k v hv
        rcases (mem_key_kwUpdate _ _ k).mp ⟨v, hv⟩ with h' | ⟨w, hw⟩
        · rw [mem_plain, mem_key_kwUpdate] at h'
          rcases h' with ⟨w, hw⟩ | h'
          · rw [hd] at hw
            obtain ⟨p, hp, e⟩ := List.mem_filterMap.mp hw
            obtain ⟨x, hx, e⟩ := Option.map_eq_some_iff.mp e
            cases e
            obtain ⟨j, hj, ej⟩ := List.getElem_of_mem hp
            refine ⟨j, p.2, ?_, by rw [List.getElem?_eq_getElem hj, ej]⟩
            apply Classical.byContradiction
            intro hlt
            have := hcol j p.1 p.2 (by omega) (by rw [List.getElem?_eq_getElem hj, ej])
            rw [this] at hx
            cases hx
          · obtain ⟨w, hw⟩ := (mem_plain kw k).mpr h'
            exact h k w (List.mem_append_right _ hw)
        · exact h k w (List.mem_append_left _ hw)
      · intro h k v hv
        rcases List.mem_append.mp hv with hv | hv
        · obtain ⟨w, hw⟩ := (mem_key_kwUpdate (plainKw (kwUpdate c.defaults kw)) given k).mpr (.inr ⟨v, hv⟩)
          exact h k w hw
        · have h1 := (mem_plain kw k).mp ⟨v, hv⟩
          have h2 := (mem_plain (kwUpdate c.defaults kw) k).mpr ((mem_key_kwUpdate _ _ k).mpr (.inr h1))
          obtain ⟨w, hw⟩ := (mem_key_kwUpdate _ given k).mpr (.inl h2)
          exact h k w hw
    rw [← hkeys]
    have hlook : ∀ (i : Nat) n d, a.function.params[i]? = some (n, d) → ∀ v,
        ((given ++ plainKw kw).lookup n = some v ∨ ((given ++ plainKw kw).lookup n = none ∧ d.map PyArg.scalar = some v)) ↔
        ((kwUpdate (plainKw (kwUpdate c.defaults kw)) given).lookup n = some v ∨
          ((kwUpdate (plainKw (kwUpdate c.defaults kw)) given).lookup n = none ∧ d.map PyArg.scalar = some v)) := by
      intro i n d hp v
      have h1 := lookup_defaults a.function.params hn i n d hp
      rw [← hd] at h1
      rw [lookup_app, lookup_kwUpdate, lookup_plain, lookup_plain, lookup_kwUpdate, h1]
      cases given.lookup n <;> cases kw.lookup n <;> cases d <;> simp
    constructor
    · rintro ⟨h1, h2, h3, h4⟩
      refine ⟨h1, h2, h3, ?_⟩
      intro i n d v hp hv
      have := h4 i n d v hp hv
      split
      · next hi => rwa [if_pos hi] at this
      · next hi =>
        rw [if_neg hi] at this
        exact (hlook i n d hp v).mp this
    · rintro ⟨h1, h2, h3, h4⟩
      refine ⟨h1, h2, h3, ?_⟩
      intro i n d v hp hv
      have := h4 i n d v hp hv
      split
      · next hi => rwa [if_pos hi] at this
      · next hi =>
        rw [if_neg hi] at this
        exact (hlook i n d hp v).mpr this
  constructor
  · intro args h
    exact hcall.1 args ((hR args).mp h)
  · intro h
    exact hcall.2 fun ⟨args, ha⟩ => h ⟨args, (hR args).mpr ha⟩

/-- If a parameter that takes a column has a default, the primitive cannot be called at all. -/
theorem C69_default_column (kind : MadeKind) (a : MakeArgs) (c : MadeClass) (hm : makePrimitive kind a = .ok c)
    (hn : (a.function.params.map Prod.fst).Nodup) (kw : List (String × Val)) (i : MadeInst) (hi : c.new [] kw = .ok i)
    (columns : List PyArg) (hcol : ¬ ColumnsRequired a.function columns.length) (given : List (String × PyArg)) :
    i.call columns given = .error .typeError := by
  obtain ⟨hk, hf, hd⟩ := make_ok kind a c hm
  unfold ColumnsRequired at hcol
  have : ∃ (j : Nat) (n : String) (v : Val), j < columns.length ∧ a.function.params[j]? = some (n, some v) := by
    apply Classical.byContradiction
    intro hno
    apply hcol
    intro j n d hj hp
    cases d with
    | none => rfl
    | some v => exact absurd ⟨j, n, v, hj, hp⟩ hno
  obtain ⟨j, n, v, hj, hp⟩ := this
  have hmem : (n, v) ∈ c.defaults := by
    rw [hd]
    exact List.mem_filterMap.mpr ⟨(n, some v), List.mem_of_getElem? hp, rfl⟩
  have hkw : i = ⟨c, kwUpdate c.defaults kw⟩ := by
    unfold MadeClass.new at hi
    split at hi
    · next he =>
      simp at he
      rw [he] at hmem
      cases hmem
    · split at hi
      · simp at hi; exact hi.symm
      · cases hi; rfl
  have hcall := call_spec a.function hn columns (kwUpdate (plainKw (kwUpdate c.defaults kw)) given)
  have e : i.call columns given = a.function.call columns (kwUpdate (plainKw (kwUpdate c.defaults kw)) given) := by
    rw [hkw]
    unfold MadeInst.call
    simp only
    rw [hf]
    rfl
  rw [e]
  apply hcall.2
  rintro ⟨args, _, _, hkeys, _⟩
  have h1 := (mem_plain (kwUpdate c.defaults kw) n).mpr ((mem_key_kwUpdate _ _ n).mpr (.inl ⟨v, hmem⟩))
  obtain ⟨w, hw⟩ := (mem_key_kwUpdate _ given n).mpr (.inl h1)
  obtain ⟨i', d, hle, hp'⟩ := hkeys n w hw
  have := (eq_of_nodup_names hn hp hp').1
  omega

/-- Which constructor arguments are taken: none if the function has no defaults; otherwise any keywords, and positions only by
transform primitives. -/
theorem C69_constructor (c : MadeClass) (pos : List Val) (kw : List (String × Val)) :
    (∃ i, c.new pos kw = .ok i) ↔ if c.defaults = [] then pos = [] ∧ kw = [] else c.kind = .trans ∨ pos = [] := by
  unfold MadeClass.new
  by_cases h : c.defaults = []
  · simp only [h, List.isEmpty_nil, if_true]
    cases pos <;> cases kw <;> simp
  · rw [if_neg (by simpa using h), if_neg h]
    cases c.kind <;> cases pos <;> simp

namespace MakePrimExample
/-- `def shifted(values, by=1): return len(values) + by` -/
def shifted : PyFun := ⟨"shifted", none, [("values", none), ("by", some (.num 1))], fun
  | [.col l, .scalar (.num b)] => .ok (.num (l.length + b))
  | _ => .error .typeError⟩
def shiftedArgs : MakeArgs := { function := shifted, inputTypes := .obj 1, numInputs := 1, returnType := .obj 2 }
def shiftedClass : MadeClass := match makeAggPrimitive shiftedArgs with | .ok c => c | .error _ => ⟨.agg, shifted, [], []⟩
/-- `def both(a, b=None): return 0` -/
def both : PyFun := ⟨"both", none, [("a", none), ("b", some .null)], fun _ => .ok (.num 0)⟩
def bothArgs : MakeArgs := { function := both, inputTypes := .obj 1, numInputs := 2, returnType := .obj 2 }
/-- The hypotheses of the call are met. -/
example : ∃ c i, makePrimitive .agg shiftedArgs = .ok c ∧ c.new [] [("by", .num 7)] = .ok i ∧
    (shiftedArgs.function.params.map Prod.fst).Nodup ∧ ColumnsRequired shiftedArgs.function 1 ∧
    i.call [.col [.null, .null]] [] = .ok (.num 9) := by
  refine ⟨_, _, rfl, rfl, by decide, ?_, by decide +kernel⟩
  intro i n d hi hp
  have : i = 0 := by omega
  subst this
  cases hp
  rfl
example : shiftedClass.attr "default_value" = some (.val (.num 1)) := by decide +kernel
example : ∃ c, makePrimitive .trans bothArgs = .ok c ∧ ¬ ColumnsRequired bothArgs.function 2 := by
  refine ⟨_, rfl, ?_⟩
  intro h
  have := h 1 "b" (some .null) (by omega) rfl
  cases this
/-- The hypotheses about refused functions are met. -/
example : makePrimitive .trans { bothArgs with function := ⟨"f", none, [("x", none), ("time", some .null)], fun _ => .ok .null⟩ } = .error .valueError :=
  rfl
end MakePrimExample
open MakePrimExample

/-- A function of two columns that can be called with them cannot be used as a primitive if the second one has a default. -/
theorem C69_default_column_violated : ∃ (a : MakeArgs) (columns : List PyArg) (v : Val), a.function.call columns [] = .ok v ∧
    ∃ c i, makePrimitive .trans a = .ok c ∧ c.new [] [] = .ok i ∧ i.call columns [] = .error .typeError :=
  ⟨bothArgs, [.col [.num 1], .col [.num 2]], .num 0, by decide +kernel, _, _, rfl, rfl, by decide +kernel⟩

/-- A primitive built with keywords does not have the value of its function for instances without data. -/
theorem C69_default_value_violated : ∃ (a : MakeArgs) (c : MadeClass) (i : MadeInst) (v : Val), makeAggPrimitive a = .ok c ∧
    c.new [] [("by", .num 7)] = .ok i ∧ i.call [.col []] [] = .ok v ∧ c.attr "default_value" ≠ some (.val v) := by
  refine ⟨shiftedArgs, shiftedClass, ⟨shiftedClass, [("by", .num 7)]⟩, .num 7, ?_, ?_, ?_, ?_⟩
  · rfl
  · rfl
  · decide +kernel
  · decide +kernel

/-- Class attributes that are also arguments are lost. -/
theorem C69_attributes_violated : ∃ (a : MakeArgs) (c : MadeClass) (v : PyObj), makeAggPrimitive a = .ok c ∧
    a.clsAttributes.lookup "stack_on" = some v ∧ c.attr "stack_on" ≠ some v :=
  ⟨{ shiftedArgs with clsAttributes := [("stack_on", .obj 5)] }, _, .obj 5, rfl, rfl, by decide +kernel⟩

/-- The keywords a primitive was built with do not reach its name or its saved form: whatever they are, both are the same, and loading
builds the primitive without them. -/
theorem C69_arguments_lost (c : MadeClass) (i j : MadeInst)
    (pos pos' : List Val) (kw kw' : List (String × Val)) (hi : c.new pos kw = .ok i) (hj : c.new pos' kw' = .ok j) :
    i.getArguments = [] ∧ serializeMade i = serializeMade j ∧ (serializeMade i).arguments = [] := by
  have hcls : ∀ (p : List Val) (k : List (String × Val)) (x : MadeInst), c.new p k = .ok x → x.cls = c := by
    intro p k x hx
    unfold MadeClass.new at hx
    split at hx
    · split at hx
      · cases hx; rfl
      · cases hx
    · split at hx
      · split at hx
        · cases hx; rfl
        · cases hx
      · cases hx; rfl
  have hargs : ∀ x : MadeInst, x.getArguments = [] := by
    intro x
    unfold MadeInst.getArguments MadeClass.signature
    split
    · rfl
    · split <;> rfl
  refine ⟨hargs i, ?_, ?_⟩
  · unfold serializeMade
    rw [hargs i, hargs j, hcls _ _ _ hi, hcls _ _ _ hj]
  · unfold serializeMade
    rw [hargs i]

/-- C69: the saved form tells the kind of a primitive: it is looked for in the module of its base class. -/
theorem C69_saved_kind (i : MadeInst) :
    (serializeMade i).module = match i.cls.kind with
      | .agg => "featuretools.primitives.base.aggregation_primitive_base"
      | .trans => "featuretools.primitives.base.transform_primitive_base" := by
  unfold serializeMade
  cases i.cls.kind <;> rfl

/-- So a primitive that is saved and loaded may compute something else. -/
theorem C69_saved_violated : ∃ (a : MakeArgs) (c : MadeClass) (i j : MadeInst), makeAggPrimitive a = .ok c ∧
    c.new [] [("by", .num 7)] = .ok i ∧ c.new [] (serializeMade i).arguments = .ok j ∧
    i.call [.col [.null]] [] ≠ j.call [.col [.null]] [] := by
  refine ⟨shiftedArgs, shiftedClass, ⟨shiftedClass, [("by", .num 7)]⟩, ⟨shiftedClass, [("by", .num 1)]⟩, rfl, rfl, rfl, ?_⟩
  decide +kernel

/-- An unknown keyword is taken when the primitive is built, and every call fails. -/
theorem C69_unknown_keyword (kind : MadeKind) (a : MakeArgs) (c : MadeClass) (hm : makePrimitive kind a = .ok c)
    (hn : (a.function.params.map Prod.fst).Nodup) (kw : List (String × Val)) (i : MadeInst) (hi : c.new [] kw = .ok i)
    (k : String) (v : Val) (hk : (k, v) ∈ kw) (hu : k ∉ a.function.params.map Prod.fst) (columns : List PyArg) (given : List (String × PyArg)) :
    i.call columns given = .error .typeError := by
  by_cases hcol : ColumnsRequired a.function columns.length
  · apply (C69_call_partial kind a c hm hn kw i hi columns hcol given).2
    rintro ⟨args, _, _, hkeys, _⟩
    obtain ⟨w, hw⟩ := (mem_plain kw k).mpr ⟨v, hk⟩
    obtain ⟨j, d, _, hp⟩ := hkeys k w (List.mem_append_right _ hw)
    exact hu (List.mem_map.mpr ⟨_, List.mem_of_getElem? hp, rfl⟩)
  · exact C69_default_column kind a c hm hn kw i hi columns hcol given

example : ∃ i, shiftedClass.new [] [("bye", .num 7)] = .ok i ∧ i.call [.col []] [] = .error .typeError :=
  ⟨_, rfl, by decide +kernel⟩

end FT
