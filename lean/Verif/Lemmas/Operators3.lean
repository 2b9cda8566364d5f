import Verif.Lemmas.Operators2
/-!
# Lemmas about operators: columns and construction
-/
namespace FT
open Spec

/-! ### Results of mirrored operators -/

theorem infinite_not_fin {q : Rat} : ¬ Infinite (.fin q) := by rintro (h | h) <;> cases h

theorem opposite_symm {x y : Ext} (h : Opposite x y) : Opposite y x := by
  cases h with
  | fin q => have := Opposite.fin (-q); rwa [Rat.neg_neg] at this
  | posInf => exact .negInf
  | negInf => exact .posInf

theorem sum_comm {x y : Ext} {v : OCell} (h : Sum x y v) : Sum y x v := by
  cases h with
  | fin p q => rw [Rat.add_comm]; exact .fin q p
  | left q h => exact .right q h
  | right q h => exact .left q h
  | same h => exact .same h
  | opposite h ho => exact .opposite (by rcases h with rfl | rfl <;> cases ho <;> simp [Infinite]) (opposite_symm ho)

theorem product_comm {x y : Ext} {v : OCell} (h : Product x y v) : Product y x v := by
  cases h with
  | fin p q => rw [Rat.mul_comm]; exact .fin q p
  | zero h => exact .zero' h
  | zero' h => exact .zero h
  | positive h h1 h2 => exact .positive h.symm h2 h1
  | positive' h h1 h2 => exact .positive' h.symm h2 h1
  | negative h h1 h2 => exact .negative' h.symm h2 h1
  | negative' h h1 h2 => exact .negative h.symm h2 h1

/-- The operator with the operands exchanged, where there is one. -/
def mirrored : POp → Option POp
  | .lt => some .gt | .gt => some .lt | .le => some .ge | .ge => some .le
  | .eq => some .eq | .ne => some .ne | .add => some .add | .mul => some .mul
  | .and => some .and | .or => some .or
  | _ => none

theorem result_mirrored {o o' : POp} {a b v : OCell} (hm : mirrored o = some o') (h : Result o a b v) : Result o' b a v := by
  cases h with
  | lt hc hv => cases hm; exact .gt (comparable_swap hc) hv
  | gt hc hv => cases hm; exact .lt (comparable_swap hc) hv
  | le hc hv => cases hm; exact .ge (comparable_swap hc) (by rw [same_comm b a]; exact hv)
  | ge hc hv => cases hm; exact .le (comparable_swap hc) (by rw [same_comm b a]; exact hv)
  | eq hv => cases hm; exact .eq (by rw [same_comm b a]; exact hv)
  | ne hv => cases hm; exact .ne (by rw [same_comm b a]; exact hv)
  | add ha hb hs => cases hm; exact .add hb ha (sum_comm hs)
  | sub => cases hm
  | mul ha hb hn hs => cases hm; exact .mul hb ha (fun ⟨p, q, h1, h2⟩ => hn ⟨q, p, h2, h1⟩) (product_comm hs)
  | mulBool p q => cases hm; rw [Bool.and_comm]; exact .mulBool q p
  | div => cases hm
  | mod => cases hm
  | missing ho hs =>
    rcases ho with rfl | rfl | rfl | rfl | rfl <;> cases hm
    · exact .missing (.inl rfl) ⟨hs.2.1, hs.1, hs.2.2.symm⟩
    · exact .missing (.inr (.inr (.inl rfl))) ⟨hs.2.1, hs.1, hs.2.2.symm⟩
  | and p q => cases hm; rw [Bool.and_comm]; exact .and q p
  | or p q => cases hm; rw [Bool.or_comm]; exact .or q p

/-! ### Columns -/

theorem mapM_cells {α β : Type} (f : α → Except PyErr β) (l : List α) (h : ∀ p ∈ l, ∃ v, f p = .ok v) :
    ∃ r, l.mapM f = .ok r ∧ r.length = l.length ∧ ∀ (i : Nat) p, l[i]? = some p → ∃ v, r[i]? = some v ∧ f p = .ok v := by
  induction l with
  | nil => exact ⟨[], rfl, rfl, by simp⟩
  | cons a l ih =>
    obtain ⟨v, hv⟩ := h a (by simp)
    obtain ⟨r, hr, hlen, hget⟩ := ih (fun p hp => h p (by simp [hp]))
    refine ⟨v :: r, ?_, by simp [hlen], ?_⟩
    · rw [List.mapM_cons, hv, hr]; rfl
    · intro i p hp
      cases i with
      | zero => simp at hp; subst hp; exact ⟨v, rfl, hv⟩
      | succ i => simpa using hget i p (by simpa using hp)

theorem zipCells_ok (f : OCell → OCell → Except PyErr OCell) (X Y : OColumn) (n : Nat) (hX : X.cells.length = n)
    (hY : Y.cells.length = n) (h : ∀ x ∈ X.cells, ∀ y ∈ Y.cells, ∃ v, f x y = .ok v) :
    ∃ Z, zipCells f X Y = .ok Z ∧ Z.cells.length = n ∧ ∀ (i : Nat) x y, X.cells[i]? = some x → Y.cells[i]? = some y →
      ∃ v, Z.cells[i]? = some v ∧ f x y = .ok v := by
  obtain ⟨r, hr, hlen, hget⟩ := mapM_cells (fun p : OCell × OCell => f p.1 p.2) (List.zip X.cells Y.cells) (by
    rintro ⟨x, y⟩ hp
    obtain ⟨h1, h2⟩ := List.of_mem_zip hp
    exact h x h1 y h2)
  refine ⟨⟨none, r⟩, by simp only [zipCells, hr]; rfl, by simp [hlen, hX, hY], ?_⟩
  intro i x y hx hy
  exact hget i (x, y) (by rw [List.getElem?_zip_eq_some]; exact ⟨hx, hy⟩)

theorem mapCells_ok (f : OCell → Except PyErr OCell) (X : OColumn) (n : Nat) (hX : X.cells.length = n)
    (h : ∀ x ∈ X.cells, ∃ v, f x = .ok v) :
    ∃ Z, mapCells f X = .ok Z ∧ Z.cells.length = n ∧ ∀ (i : Nat) x, X.cells[i]? = some x →
      ∃ v, Z.cells[i]? = some v ∧ f x = .ok v := by
  obtain ⟨r, hr, hlen, hget⟩ := mapM_cells f X.cells h
  exact ⟨⟨none, r⟩, by simp only [mapCells, hr]; rfl, by simp [hlen, hX], hget⟩

theorem zipCells_cats (f : OCell → OCell → Except PyErr OCell) (X Y : OColumn) (c d : Option (List OCell)) :
    zipCells f { X with cats := c } { Y with cats := d } = zipCells f X Y := rfl

/-- `equal` and `not_equal` never fail for different categories. -/
theorem compareUnion_eq (f : OCell → OCell → Except PyErr OCell) (X Y : OColumn) : compareUnion f X Y = zipCells f X Y := by
  unfold compareUnion
  cases hx : X.cats with
  | none => simp [compareSeries, hx]
  | some cx =>
    cases hy : Y.cats with
    | none => simp [compareSeries, hx, hy]
    | some cy =>
      simp only [compareSeries]
      have h1 : ((addCategories (cx ++ cy) cx).all fun x => (addCategories (cx ++ cy) cy).contains x) = true := by
        simp only [List.all_eq_true, List.contains_iff_mem, addCategories, List.mem_append, List.mem_filter]
        rintro x (h | ⟨h | h, _⟩)
        · by_cases hxy : x ∈ cy
          · exact .inl hxy
          · exact .inr ⟨.inl h, by simpa using hxy⟩
        · by_cases hxy : x ∈ cy
          · exact .inl hxy
          · exact .inr ⟨.inl h, by simpa using hxy⟩
        · exact .inl h
      have h2 : ((addCategories (cx ++ cy) cy).all fun x => (addCategories (cx ++ cy) cx).contains x) = true := by
        simp only [List.all_eq_true, List.contains_iff_mem, addCategories, List.mem_append, List.mem_filter]
        rintro x (h | ⟨h | h, _⟩)
        · by_cases hxy : x ∈ cx
          · exact .inl hxy
          · exact .inr ⟨.inr h, by simpa using hxy⟩
        · exact .inl h
        · by_cases hxy : x ∈ cx
          · exact .inl hxy
          · exact .inr ⟨.inr h, by simpa using hxy⟩
      rw [h1, h2]
      rfl

/-- The operator that a primitive of two inputs stands for. -/
def Prim2.op : Prim2 → POp
  | .gt => .gt | .ge => .ge | .lt => .lt | .le => .le | .eq => .eq | .ne => .ne
  | .add => .add | .sub _ => .sub | .mul => .mul | .mulBool => .mul | .div _ => .div | .mod => .mod
  | .and => .and | .or => .or

/-- The function of a primitive of two inputs on cells. -/
def Prim2.cell (p : Prim2) : OCell → OCell → Except PyErr OCell :=
  match p with
  | .mulBool => bitAndCell
  | p => cellOp p.op

theorem Prim2.fn_eq (p : Prim2) (X Y : OColumn) : p.fn X Y = zipCells p.cell X Y := by
  cases p <;> first | rfl | exact compareUnion_eq _ _ _

/-! ### Types of results -/

theorem fits_notText {t : VFam} {c : OCell} (ht : t ≠ .other) (h : CellFits t c) : NotText c := by
  intro s hs
  subst hs
  cases t <;> simp [CellFits] at h ht

theorem ofNum_fits (x : Option Ext) : CellFits .numeric (OCell.ofNum x) := by
  cases x with
  | none => exact .inl rfl
  | some x => exact .inr ⟨x, rfl⟩

theorem arith_fits {f : Ext → Ext → Option Ext} {a b v : OCell} (h : arith f a b = .ok v) : CellFits .numeric v := by
  simp only [arith] at h
  cases ha : a.asNum with
  | error e => rw [ha] at h; cases h
  | ok x =>
    cases hb : b.asNum with
    | error e => rw [ha, hb] at h; cases h
    | ok y => rw [ha, hb] at h; cases h; exact ofNum_fits _

theorem map_bool_fits {r : Except PyErr Bool} {v : OCell} (h : r.map OCell.bool = .ok v) : CellFits .boolean v := by
  cases r with
  | error e => cases h
  | ok b => cases h; exact ⟨b, rfl⟩

theorem cellOp_fits_boolean {o : POp} {a b v : OCell} (ho : IsOrder o ∨ IsEquality o) (h : cellOp o a b = .ok v) :
    CellFits .boolean v := by
  rcases ho with (rfl | rfl | rfl | rfl) | rfl | rfl
  · exact map_bool_fits h
  · exact map_bool_fits h
  · exact map_bool_fits h
  · exact map_bool_fits h
  · simp only [cellOp] at h; cases h; exact ⟨_, rfl⟩
  · simp only [cellOp] at h; cases h; exact ⟨_, rfl⟩

theorem cellOp_fits_numeric {o : POp} {a b v : OCell} (ho : IsArithmetic o) (h : cellOp o a b = .ok v) :
    CellFits .numeric v := by
  rcases ho with rfl | rfl | rfl | rfl | rfl <;> exact arith_fits h

/-- On cells that fit the types it accepts, a primitive computes its operator. -/
theorem Prim2.cell_spec (p : Prim2) (t u : VFam) (hin : (p.inputs.any fun i => i.1.accepts t && i.2.accepts u) = true)
    {x y : OCell} (hx : CellFits t x) (hy : CellFits u y) :
    ∃ v, p.cell x y = .ok v ∧ Result p.op x y v ∧ CellFits p.returns v := by
  have hord : ∀ {t : VFam} {c : OCell}, CellFits t c → (t = .numeric ∨ t = .datetime ∨ t = .ordinal) → NotText c := by
    rintro t c h (rfl | rfl | rfl)
    · exact fits_notText (by simp) h
    · exact fits_notText (by simp) h
    · exact fits_notText (by simp) h
  have order : ∀ q : Prim2, (q.cell = cellOp q.op) → IsOrder q.op → q.returns = .boolean →
      q.inputs = Prim2.gt.inputs → (q.inputs.any fun i => i.1.accepts t && i.2.accepts u) = true →
      ∃ v, q.cell x y = .ok v ∧ Result q.op x y v ∧ CellFits q.returns v := by
    intro q hc ho hr hi hin
    rw [hi] at hin
    have htu : (t = .numeric ∨ t = .datetime ∨ t = .ordinal) ∧ (u = .numeric ∨ u = .datetime ∨ u = .ordinal) := by
      cases t <;> cases u <;> simp [Prim2.inputs, VIn.accepts] at hin ⊢
    obtain ⟨v, hv⟩ := result_exists (.inl ⟨ho, .inl ⟨hord hx htu.1, hord hy htu.2⟩⟩ : Acceptable q.op x y)
    have hne : q.op ≠ .mul := by intro h; rw [h] at ho; rcases ho with h | h | h | h <;> cases h
    have he := result_cellOp hv (fun h => absurd h hne)
    exact ⟨v, by rw [hc]; exact he, hv, by rw [hr]; exact cellOp_fits_boolean (.inl ho) he⟩
  have equality : ∀ q : Prim2, (q.cell = cellOp q.op) → IsEquality q.op → q.returns = .boolean →
      ∃ v, q.cell x y = .ok v ∧ Result q.op x y v ∧ CellFits q.returns v := by
    intro q hc ho hr
    obtain ⟨v, hv⟩ := result_exists (.inr (.inl ho) : Acceptable q.op x y)
    have hne : q.op ≠ .mul := by intro h; rw [h] at ho; rcases ho with h | h <;> cases h
    have he := result_cellOp hv (fun h => absurd h hne)
    exact ⟨v, by rw [hc]; exact he, hv, by rw [hr]; exact cellOp_fits_boolean (.inr ho) he⟩
  have arithmetic : ∀ q : Prim2, (q.cell = cellOp q.op) → IsArithmetic q.op → q.returns = .numeric →
      (t = .numeric ∨ t = .boolean) → (u = .numeric ∨ u = .boolean) → ¬ (t = .boolean ∧ u = .boolean) →
      ∃ v, q.cell x y = .ok v ∧ Result q.op x y v ∧ CellFits q.returns v := by
    intro q hc ho hr ht hu hb
    have hx' : NotText x := by rcases ht with rfl | rfl <;> exact fits_notText (by simp) hx
    have hy' : NotText y := by rcases hu with rfl | rfl <;> exact fits_notText (by simp) hy
    have hnb : q.op = .mul → ¬ BothBool x y := by
      rintro - ⟨a, b, rfl, rfl⟩
      have h1 : t = .boolean := ht.resolve_left (by rintro rfl; simp [CellFits] at hx)
      have h2 : u = .boolean := hu.resolve_left (by rintro rfl; simp [CellFits] at hy)
      exact hb ⟨h1, h2⟩
    obtain ⟨v, hv⟩ := result_exists (.inr (.inr (.inl ⟨ho, hx', hy', hnb⟩)) : Acceptable q.op x y)
    have he := result_cellOp hv hnb
    exact ⟨v, by rw [hc]; exact he, hv, by rw [hr]; exact cellOp_fits_numeric ho he⟩
  have numnum : ∀ q : Prim2, q.inputs = Prim2.add.inputs → (q.inputs.any fun i => i.1.accepts t && i.2.accepts u) = true →
      t = .numeric ∧ u = .numeric := by
    intro q hi h
    rw [hi] at h
    cases t <;> cases u <;> simp [Prim2.inputs, VIn.accepts] at h ⊢
  have boolbool : ∀ q : Prim2, q.inputs = Prim2.and.inputs → (q.inputs.any fun i => i.1.accepts t && i.2.accepts u) = true →
      ∃ a b, x = .bool a ∧ y = .bool b := by
    intro q hi h
    rw [hi] at h
    have : t = .boolean ∧ u = .boolean := by cases t <;> cases u <;> simp [Prim2.inputs, VIn.accepts] at h ⊢
    obtain ⟨rfl, rfl⟩ := this
    obtain ⟨a, ha⟩ := hx
    obtain ⟨b, hb⟩ := hy
    exact ⟨a, b, ha, hb⟩
  cases p with
  | gt => exact order _ rfl (.inr (.inr (.inl rfl))) rfl rfl hin
  | ge => exact order _ rfl (.inr (.inr (.inr rfl))) rfl rfl hin
  | lt => exact order _ rfl (.inl rfl) rfl rfl hin
  | le => exact order _ rfl (.inr (.inl rfl)) rfl rfl hin
  | eq => exact equality _ rfl (.inl rfl) rfl
  | ne => exact equality _ rfl (.inr rfl) rfl
  | add =>
    obtain ⟨h1, h2⟩ := numnum .add rfl hin
    exact arithmetic _ rfl (.inl rfl) rfl (.inl h1) (.inl h2) (by simp [h1])
  | sub c =>
    obtain ⟨h1, h2⟩ := numnum (.sub c) rfl hin
    exact arithmetic _ rfl (.inr (.inl rfl)) rfl (.inl h1) (.inl h2) (by simp [h1])
  | mul =>
    have h : (t = .numeric ∨ t = .boolean) ∧ (u = .numeric ∨ u = .boolean) ∧ ¬ (t = .boolean ∧ u = .boolean) := by
      cases t <;> cases u <;> simp [Prim2.inputs, VIn.accepts] at hin ⊢
    exact arithmetic _ rfl (.inr (.inr (.inl rfl))) rfl h.1 h.2.1 h.2.2
  | mulBool =>
    obtain ⟨a, b, rfl, rfl⟩ := boolbool .mulBool rfl hin
    exact ⟨_, rfl, .mulBool a b, ⟨_, rfl⟩⟩
  | div c =>
    obtain ⟨h1, h2⟩ := numnum (.div c) rfl hin
    exact arithmetic _ rfl (.inr (.inr (.inr (.inl rfl)))) rfl (.inl h1) (.inl h2) (by simp [h1])
  | mod =>
    obtain ⟨h1, h2⟩ := numnum .mod rfl hin
    exact arithmetic _ rfl (.inr (.inr (.inr (.inr rfl)))) rfl (.inl h1) (.inl h2) (by simp [h1])
  | and =>
    obtain ⟨a, b, rfl, rfl⟩ := boolbool .and rfl hin
    exact ⟨.bool (a && b), by cases a <;> rfl, .and a b, ⟨_, rfl⟩⟩
  | or =>
    obtain ⟨a, b, rfl, rfl⟩ := boolbool .or rfl hin
    exact ⟨.bool (a || b), by cases a <;> rfl, .or a b, ⟨_, rfl⟩⟩

end FT
