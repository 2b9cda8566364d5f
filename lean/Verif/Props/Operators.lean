import Verif.Lemmas.Operators6
/-!
# C62, C63, C64: features built with operators

The specification is `Verif/Spec/Operators.lean`: `Means` gives the value of an expression in a row, `TypeOf` its type,
`Written` its text.
-/
namespace FT
open Spec

/-! ### Examples -/

namespace OperatorsExample

/-- Columns of two entities. -/
def a : Leaf := ⟨.other, "log", "a", .numeric⟩
def b : Leaf := ⟨.other, "log", "b", .numeric⟩
def c : Leaf := ⟨.other, "log", "c", .numeric⟩
def g : Leaf := ⟨.groupby, "log", "g", .numeric⟩
def p : Leaf := ⟨.other, "log", "p", .boolean⟩
def q : Leaf := ⟨.other, "log", "q", .boolean⟩
def far : Leaf := ⟨.other, "sessions", "a", .numeric⟩

/-- `(a + b) * 2 > c` -/
def e : PExpr := .op .gt (.opScalar .mul (.op .add (.leaf a) (.leaf b)) (.num (.fin 2))) (.leaf c)
/-- `(a + b) < g`: Python asks `g`. -/
def eg : PExpr := .op .lt (.op .add (.leaf a) (.leaf b)) (.leaf g)

/-- Three rows for every feature. -/
def data (l : Leaf) : OColumn :=
  match l.vtype with
  | .boolean => ⟨none, [.bool true, .bool false, .bool true]⟩
  | _ =>
    if l.name = "a" then ⟨none, [.num (.fin 1), .missing, .num .posInf]⟩
    else if l.name = "b" then ⟨none, [.num (.fin 2), .num (.fin 3), .num (.fin 4)]⟩
    else ⟨none, [.num (.fin 5), .num (.fin 6), .num (.fin 7)]⟩

theorem data_fits : DataFits data 3 := by
  intro l
  unfold data
  split
  · rename_i h
    refine ⟨rfl, ?_⟩
    rw [h]; simp [CellFits]
  · rename_i h
    split
    · refine ⟨rfl, ?_⟩
      cases hv : l.vtype <;> simp_all [CellFits]
    · split <;> refine ⟨rfl, ?_⟩ <;> cases hv : l.vtype <;> simp_all [CellFits]

/-- Texts of scalars. -/
def text : OCell → String
  | .num (.fin x) => if x = 2 then "2" else if x = 3 then "3" else "?"
  | .str s => s
  | _ => "?"
def listText : List OCell → String
  | [] => "[]"
  | _ => "[2]"

end OperatorsExample
open OperatorsExample (data_fits)

/-! ### C62 -/

/-- **C62** An expression over features is accepted exactly if its leaves are features of one entity and the operators fit
the types; the feature is of that entity and has the type of the expression. -/
theorem C62_builds (e : PExpr) (entity : String) (t : VFam) :
    (∃ f, build e = .ok f ∧ f.entity = entity ∧ f.vtype = t) ↔ TypeOf e entity t := by
  constructor
  · rintro ⟨f, hf, rfl, rfl⟩; exact build_typeOf e f hf
  · exact typeOf_build

example : TypeOf OperatorsExample.e "log" .boolean :=
  .op (.opScalar _ (.op (.leaf OperatorsExample.a) (.leaf OperatorsExample.b) (.arithmetic (.inl rfl)))
    (.arithmetic (.inr (.inr (.inl rfl))))) (.leaf OperatorsExample.c) (.order (.inr (.inr (.inl rfl))) (.inl rfl))

/-- Columns of different entities cannot be added. -/
example : build (.op .add (.leaf OperatorsExample.a) (.leaf OperatorsExample.far)) = .error .assertionError := by decide +kernel

/-- **C62** The column of the feature that an expression builds has a cell for every row, and the cell of a row is the value
of the expression on the cells of that row. -/
theorem C62_value (e : PExpr) (f : OFeat) (hf : build e = .ok f) (hs : ScalarsFit e) (data : Leaf → OColumn) (n : Nat)
    (hd : DataFits data n) :
    ∃ Z, f.column data = .ok Z ∧ Z.cells.length = n ∧ ∀ i < n, ∃ v, Z.cells[i]? = some v ∧ Means (rowAt data i) e v := by
  obtain ⟨Z, h1, h2, _, h4⟩ := build_column data n hd e f hf hs
  exact ⟨Z, h1, h2, h4⟩

example : (∃ f, build OperatorsExample.e = .ok f) ∧ ScalarsFit OperatorsExample.e ∧ DataFits OperatorsExample.data 3 :=
  ⟨⟨_, rfl⟩, ⟨⟨⟨trivial, trivial⟩, fun _ s h => by cases h⟩, trivial⟩, data_fits⟩

example : (∃ f, build OperatorsExample.eg = .ok f ∧ f = .bin .gt (.leaf OperatorsExample.g)
    (.bin .add (.leaf OperatorsExample.a) (.leaf OperatorsExample.b))) ∧ ScalarsFit OperatorsExample.eg :=
  ⟨⟨_, rfl, rfl⟩, ⟨trivial, trivial⟩, trivial⟩

/-- **C62** Cells of the column of a feature also fit its type, so that it can be an operand again. -/
theorem C62_type (e : PExpr) (f : OFeat) (hf : build e = .ok f) (hs : ScalarsFit e) (data : Leaf → OColumn) (n : Nat)
    (hd : DataFits data n) : ∃ Z, f.column data = .ok Z ∧ ∀ c ∈ Z.cells, CellFits f.vtype c := by
  obtain ⟨Z, h1, _, h3, _⟩ := build_column data n hd e f hf hs
  exact ⟨Z, h1, h3⟩

/-- **C62** The value of an expression in a row is determined. -/
theorem C62_meaning (row : Leaf → OCell) (e : PExpr) (v w : OCell) (hv : Means row e v) (hw : Means row e w) : v = w :=
  means_unique row e v w hv hw

example : ∃ v, Means (rowAt OperatorsExample.data 0) OperatorsExample.e v := by
  obtain ⟨Z, _, _, h⟩ := C62_value OperatorsExample.e _ rfl ⟨⟨⟨trivial, trivial⟩, fun _ s h => by cases h⟩, trivial⟩ _ 3 data_fits
  obtain ⟨v, _, hv⟩ := h 0 (by decide)
  exact ⟨v, hv⟩

/-! ### C63 -/

/-- **C63** (partial) A primitive that is marked as commutative gives the same column, or fails in the same way, whichever
of its two inputs comes first. Missing: `SubtractNumeric` and `DivideNumeric`, and `And` and `Or` on columns that are not
complete booleans. -/
theorem C63_commutative_partial (p : Prim2) (hc : p.commutative = true) (hs : ∀ c, p ≠ .sub c) (hd : ∀ c, p ≠ .div c)
    (X Y : OColumn) (hb : p = .and ∨ p = .or → ∀ c, c ∈ X.cells ∨ c ∈ Y.cells → ∃ b, c = .bool b) :
    p.fn X Y = p.fn Y X :=
  p.fn_comm hc hs hd hb

example : Prim2.commutative .eq = true ∧ (∀ c, Prim2.eq ≠ .sub c) ∧ (∀ c, Prim2.eq ≠ .div c) ∧ ¬ (Prim2.eq = .and ∨ Prim2.eq = .or) := by
  decide

/-- **C63** is violated by `SubtractNumeric`, which is commutative by default: `a - b` and `b - a` differ. -/
theorem C63_subtract_violated : ∃ (X Y : OColumn), (∀ c, c ∈ X.cells ∨ c ∈ Y.cells → ∃ q, c = .num (.fin q)) ∧
    Prim2.commutative (.sub true) = true ∧ (Prim2.sub true).fn X Y ≠ (Prim2.sub true).fn Y X := by
  refine ⟨⟨none, [.num (.fin 1)]⟩, ⟨none, [.num (.fin 2)]⟩, ?_, rfl, by decide +kernel⟩
  intro c h
  rcases h with h | h <;> exact ⟨_, List.mem_singleton.mp h⟩

/-- **C63** is violated by `And` and `Or` when a boolean is missing: `True and NaN` is NaN, `NaN and True` is True. -/
theorem C63_missing_violated : ∃ (X Y : OColumn), (∀ c, c ∈ X.cells ∨ c ∈ Y.cells → c = .missing ∨ ∃ b, c = .bool b) ∧
    Prim2.commutative .and = true ∧ Prim2.commutative .or = true ∧
    Prim2.fn .and X Y ≠ Prim2.fn .and Y X ∧ Prim2.fn .or X Y ≠ Prim2.fn .or Y X := by
  refine ⟨⟨none, [.bool true]⟩, ⟨none, [.missing]⟩, ?_, rfl, rfl, by decide +kernel, by decide +kernel⟩
  intro c h
  rcases h with h | h
  · exact .inr ⟨_, List.mem_singleton.mp h⟩
  · exact .inl (List.mem_singleton.mp h)

/-! ### C64 -/

/-- **C64** The name of a feature is the text of the expression that built it, if no group-by feature is involved. -/
theorem C64_text (text : OCell → String) (listText : List OCell → String) (e : PExpr) (f : OFeat) (hf : build e = .ok f)
    (hg : NoGroupby e) (s : String) : Written text listText e s ↔ f.name text listText = s := by
  constructor
  · exact build_written e f s hg hf
  · rintro rfl
    obtain ⟨s, hs⟩ := written_exists (text := text) (listText := listText) e
    rw [build_written e f s hg hf hs]
    exact hs

example : NoGroupby OperatorsExample.e ∧ ∃ f, build OperatorsExample.e = .ok f ∧
    f.name OperatorsExample.text OperatorsExample.listText = "a + b * 2 > c" :=
  ⟨⟨⟨nofun, nofun⟩, nofun⟩, _, rfl, by decide +kernel⟩

/-- **C64** (partial) Features of an entity that are built with at most one operator and have the same name are the same
feature, if names and texts of scalars can be told apart. Missing: more than one operator, and scalars written like names. -/
theorem C64_names_partial (text : OCell → String) (listText : List OCell → String) (L : Leaf → Prop) (V : OCell → Prop)
    (D : TellApart L V text listText) (e e' : PExpr) (f g : OFeat) (hs : Simple L V e) (hs' : Simple L V e')
    (hf : build e = .ok f) (hg : build e' = .ok g) (hent : f.entity = g.entity)
    (hn : f.name text listText = g.name text listText) : f = g :=
  simple_name_inj D hs hs' hf hg hent hn

/-- The columns `a`, `b` and `p`, the numbers 2 and 3, and the lists of at most one number. -/
example : TellApart (fun l => l = OperatorsExample.a ∨ l = OperatorsExample.b ∨ l = OperatorsExample.p)
    (fun v => v = .num (.fin 2) ∨ v = .num (.fin 3)) OperatorsExample.text
    (fun l => String.join (l.map fun v => if v = .num (.fin 2) then "2" else "3")) where
  names := by rintro l (rfl | rfl | rfl) <;> simp [Plain, OperatorsExample.a, OperatorsExample.b, OperatorsExample.p]
  leaves := by rintro l m (rfl | rfl | rfl) (rfl | rfl | rfl) _ h <;> first | rfl | (exfalso; revert h; decide)
  scalars := by rintro v w (rfl | rfl) (rfl | rfl) h <;> first | rfl | (exfalso; revert h; decide +kernel)
  plain := by
    have h2 : OperatorsExample.text (.num (.fin 2)) = "2" := by decide +kernel
    have h3 : OperatorsExample.text (.num (.fin 3)) = "3" := by decide +kernel
    rintro v (rfl | rfl) _
    · rw [h2]; simp [Plain]
    · rw [h3]; simp [Plain]
  lists := by
    have hne : (OCell.num (.fin 2) : OCell) ≠ .num (.fin 3) := by decide +kernel
    intro l m hl hm h
    have key : ∀ l m : List OCell, (∀ v ∈ l, v = .num (.fin 2) ∨ v = .num (.fin 3)) → (∀ v ∈ m, v = .num (.fin 2) ∨ v = .num (.fin 3)) →
        (l.map fun v => if v = .num (.fin 2) then '2' else '3') = (m.map fun v => if v = .num (.fin 2) then '2' else '3') → l = m := by
      intro l
      induction l with
      | nil => intro m _ _ h; cases m <;> simp at h; rfl
      | cons x l ih =>
        intro m hl hm h
        cases m with
        | nil => simp at h
        | cons y m =>
          simp only [List.map_cons, List.cons.injEq] at h
          rw [ih m (fun v hv => hl v (by simp [hv])) (fun v hv => hm v (by simp [hv])) h.2]
          rcases hl x (by simp) with rfl | rfl <;> rcases hm y (by simp) with rfl | rfl
          · rfl
          · simp [hne.symm] at h
          · simp [hne.symm] at h
          · rfl
    have chars : ∀ l : List OCell, (String.join (l.map fun v => if v = .num (.fin 2) then "2" else "3")).toList =
        l.map fun v => if v = .num (.fin 2) then '2' else '3' := by
      intro l
      induction l with
      | nil => rfl
      | cons x l ih =>
        simp only [List.map_cons, String.join_cons, String.toList_append, ih]
        split <;> simp
    exact key l m hl hm (by rw [← chars, ← chars, h])
  apart := by
    have h2 : OperatorsExample.text (.num (.fin 2)) = "2" := by decide +kernel
    have h3 : OperatorsExample.text (.num (.fin 3)) = "3" := by decide +kernel
    rintro v l (rfl | rfl) (rfl | rfl | rfl) <;> simp [h2, h3, OperatorsExample.a, OperatorsExample.b, OperatorsExample.p]

/-- **C64** is violated by two operators: `(a + b) * c` and `a + (b * c)` have one name and different values. -/
theorem C64_grouping_violated : ∃ (f g : OFeat) (data : Leaf → OColumn),
    build (.op .mul (.op .add (.leaf OperatorsExample.a) (.leaf OperatorsExample.b)) (.leaf OperatorsExample.c)) = .ok f ∧
    build (.op .add (.leaf OperatorsExample.a) (.op .mul (.leaf OperatorsExample.b) (.leaf OperatorsExample.c))) = .ok g ∧
    f.entity = g.entity ∧ (∀ text listText, f.name text listText = g.name text listText) ∧
    f.column data = .ok ⟨none, [.num (.fin 9)]⟩ ∧ g.column data = .ok ⟨none, [.num (.fin 7)]⟩ := by
  refine ⟨_, _, fun l => if l.name = "a" then ⟨none, [.num (.fin 1)]⟩ else if l.name = "b" then ⟨none, [.num (.fin 2)]⟩
    else ⟨none, [.num (.fin 3)]⟩, rfl, rfl, rfl, ?_, by decide +kernel, by decide +kernel⟩
  intro text listText
  apply String.toList_inj.mp
  simp [OFeat.name, Prim2.genName]

/-- **C64** is violated by scalars: `c == "d"` and `c == d` have one name and different values. -/
theorem C64_scalar_violated : ∃ (c d : Leaf) (f g : OFeat) (data : Leaf → OColumn), c.entity = d.entity ∧
    build (.opScalar .eq (.leaf c) (.str "d")) = .ok f ∧ build (.op .eq (.leaf c) (.leaf d)) = .ok g ∧
    (∀ text listText, text (.str "d") = "d" → f.name text listText = g.name text listText) ∧
    f.column data = .ok ⟨none, [.bool true]⟩ ∧ g.column data = .ok ⟨none, [.bool false]⟩ := by
  refine ⟨⟨.other, "log", "c", .other⟩, ⟨.other, "log", "d", .other⟩, _, _,
    fun l => if l.name = "c" then ⟨none, [.str "d"]⟩ else ⟨none, [.str "x"]⟩, rfl, rfl, rfl, ?_, by decide +kernel, by decide +kernel⟩
  intro text listText h
  apply String.toList_inj.mp
  simp [OFeat.name, Prim2.genName, Prim1.genName, h]

end FT
