import Verif.Lemmas.Operators3
/-!
# Lemmas about operators: features built by expressions
-/
namespace FT
open Spec

theorem mk1_ok {p : Prim1} {a f : OFeat} :
    OFeat.mk1 p a = .ok f ↔ (p.inputs.any fun t => t.accepts a.vtype) = true ∧ f = .un p a := by
  unfold OFeat.mk1
  split
  · rename_i h
    simp only [Except.ok.injEq]
    exact ⟨fun e => ⟨h, e.symm⟩, fun e => e.2.symm⟩
  · rename_i h
    exact ⟨fun e => (by cases e), fun e => absurd e.1 h⟩

theorem mk2_ok {p : Prim2} {a b f : OFeat} :
    OFeat.mk2 p a b = .ok f ↔ a.entity = b.entity ∧ (p.inputs.any fun t => t.1.accepts a.vtype && t.2.accepts b.vtype) = true ∧
      f = .bin p a b := by
  unfold OFeat.mk2
  split
  · rename_i h
    exact ⟨fun e => (by cases e), fun e => absurd e.1 h⟩
  · rename_i h
    split
    · rename_i h'
      simp only [Except.ok.injEq]
      exact ⟨fun e => ⟨Classical.not_not.mp h, h', e.symm⟩, fun e => e.2.2.symm⟩
    · rename_i h'
      exact ⟨fun e => (by cases e), fun e => absurd e.2.1 h'⟩

/-- The primitive used for two features, left one asked. -/
def primFor (o : POp) (t u : VFam) : Prim2 :=
  match o with
  | .lt => .lt | .le => .le | .gt => .gt | .ge => .ge | .eq => .eq | .ne => .ne
  | .add => .add | .sub => .sub true | .div => .div false | .mod => .mod | .and => .and | .or => .or
  | .mul => if t = .boolean ∧ u = .boolean then .mulBool else .mul

theorem forward_feature (o : POp) (f g : OFeat) :
    forward o f (.feature g) = OFeat.mk2 (primFor o f.vtype g.vtype) f g := by
  cases o <;> try rfl
  simp only [forward, dunderMul, primFor, handleBinary]
  split <;> rfl

theorem primFor_op (o : POp) (t u : VFam) : (primFor o t u).op = o := by
  cases o <;> try rfl
  simp only [primFor]
  split <;> rfl

theorem primFor_types (o : POp) (t u r : VFam) :
    ((primFor o t u).inputs.any fun i => i.1.accepts t && i.2.accepts u) = true ∧ (primFor o t u).returns = r ↔ OpType o t u r := by
  constructor
  · rintro ⟨h, rfl⟩
    cases o <;> cases t <;> cases u <;>
      simp [primFor, Prim2.inputs, VIn.accepts] at h <;>
      first
        | (refine .order ?_ ?_ <;> (simp [IsOrder, HasOrder]; done))
        | (refine .equality _ _ ?_; simp [IsEquality]; done)
        | (refine .arithmetic ?_; simp [IsArithmetic]; done)
        | exact .scaled
        | exact .scaled'
        | exact .both
        | (refine .logic ?_; simp; done)
  · intro h
    cases h with
    | order ho ht => rcases ho with rfl | rfl | rfl | rfl <;> rcases ht with rfl | rfl | rfl <;> simp [primFor, Prim2.inputs, VIn.accepts, Prim2.returns]
    | equality _ _ ho => rcases ho with rfl | rfl <;> simp [primFor, Prim2.inputs, VIn.accepts, Prim2.returns]
    | arithmetic ho => rcases ho with rfl | rfl | rfl | rfl | rfl <;> simp [primFor, Prim2.inputs, VIn.accepts, Prim2.returns]
    | scaled => simp [primFor, Prim2.inputs, VIn.accepts, Prim2.returns]
    | scaled' => simp [primFor, Prim2.inputs, VIn.accepts, Prim2.returns]
    | both => simp [primFor, Prim2.inputs, VIn.accepts, Prim2.returns]
    | logic ho => rcases ho with rfl | rfl <;> simp [primFor, Prim2.inputs, VIn.accepts, Prim2.returns]

theorem opType_mirrored {o o' : POp} {t u r : VFam} (hm : mirrored o = some o') (h : OpType o t u r) : OpType o' u t r := by
  cases h with
  | order ho ht => rcases ho with rfl | rfl | rfl | rfl <;> cases hm <;> exact .order (by simp [IsOrder]) ht
  | equality t u ho => rcases ho with rfl | rfl <;> cases hm <;> exact .equality _ _ (by simp [IsEquality])
  | arithmetic ho => rcases ho with rfl | rfl | rfl | rfl | rfl <;> cases hm <;> exact .arithmetic (by simp [IsArithmetic])
  | scaled => cases hm; exact .scaled'
  | scaled' => cases hm; exact .scaled
  | both => cases hm; exact .both
  | logic ho => rcases ho with rfl | rfl <;> cases hm <;> exact .logic (by simp)

theorem mirrored_symm {o o' : POp} (h : mirrored o = some o') : mirrored o' = some o := by
  cases o <;> cases h <;> rfl

/-- `a o b` asks one of the two. -/
theorem between_cases (o : POp) (f g : OFeat) :
    between o f g = forward o f (.feature g) ∨
      ∃ o', mirrored o = some o' ∧ between o f g = forward o' g (.feature f) := by
  unfold between
  split
  · cases o
    · exact .inr ⟨.gt, rfl, rfl⟩
    · exact .inr ⟨.ge, rfl, rfl⟩
    · exact .inr ⟨.lt, rfl, rfl⟩
    · exact .inr ⟨.le, rfl, rfl⟩
    · exact .inr ⟨.eq, rfl, rfl⟩
    · exact .inr ⟨.ne, rfl, rfl⟩
    all_goals exact .inl rfl
  · exact .inl rfl

theorem forward_types {o : POp} {f g : OFeat} {r : VFam} :
    (∃ h, forward o f (.feature g) = .ok h ∧ h.vtype = r) ↔ f.entity = g.entity ∧ OpType o f.vtype g.vtype r := by
  rw [← primFor_types]
  simp only [forward_feature, mk2_ok]
  constructor
  · rintro ⟨h, ⟨h1, h2, rfl⟩, h3⟩; exact ⟨h1, h2, h3⟩
  · rintro ⟨h1, h2, h3⟩; exact ⟨_, ⟨h1, h2, rfl⟩, h3⟩

theorem between_types {o : POp} {f g : OFeat} {r : VFam} :
    (∃ h, between o f g = .ok h ∧ h.vtype = r) ↔ f.entity = g.entity ∧ OpType o f.vtype g.vtype r := by
  rcases between_cases o f g with h | ⟨o', hm, h⟩
  · rw [h, forward_types]
  · rw [h, forward_types]
    constructor
    · rintro ⟨h1, h2⟩; exact ⟨h1.symm, opType_mirrored (mirrored_symm hm) h2⟩
    · rintro ⟨h1, h2⟩; exact ⟨h1.symm, opType_mirrored hm h2⟩

theorem forward_entity {o : POp} {f g h : OFeat} (hf : forward o f (.feature g) = .ok h) : h.entity = f.entity := by
  rw [forward_feature, mk2_ok] at hf
  obtain ⟨_, _, rfl⟩ := hf
  rfl

theorem between_entity {o : POp} {f g h : OFeat} (hf : between o f g = .ok h) : h.entity = f.entity := by
  have he := (between_types.mp ⟨h, hf, rfl⟩).1
  rcases between_cases o f g with e | ⟨o', hm, e⟩
  · rw [e] at hf; exact forward_entity hf
  · rw [e] at hf; rw [forward_entity hf, he]

/-- The primitive used for a feature and a scalar on its right. -/
def scalarPrim (o : POp) (v : OCell) : Option Prim1 :=
  match o with
  | .lt => some (.ltS v) | .le => some (.leS v) | .gt => some (.gtS v) | .ge => some (.geS v)
  | .eq => some (.eqS v) | .ne => some (.neS v) | .add => some (.addS v) | .sub => some (.subS v)
  | .mul => some (.mulS v) | .div => some (.divS v) | .mod => some (.modS v) | .and => none | .or => none

/-- The primitive used for a scalar and a feature on its right. -/
def reflectedPrim (o : POp) (v : OCell) : Option Prim1 :=
  match o with
  | .lt => some (.gtS v) | .le => some (.geS v) | .gt => some (.ltS v) | .ge => some (.leS v)
  | .eq => some (.eqS v) | .ne => some (.neS v) | .add => some (.addS v) | .sub => some (.rsubS v)
  | .mul => some (.mulS v) | .div => some (.rdivS v) | .mod => some (.rmodS v) | .and => none | .or => none

theorem forward_scalar (o : POp) (f : OFeat) (v : OCell) :
    forward o f (.scalar v) = match scalarPrim o v with | some p => OFeat.mk1 p f | none => .error .other := by
  cases o <;> rfl

theorem reflected_scalar (o : POp) (f : OFeat) (v : OCell) :
    reflected o f v = match reflectedPrim o v with | some p => OFeat.mk1 p f | none => .error .other := by
  cases o <;> rfl

theorem scalarPrim_types (o : POp) (v : OCell) (t r : VFam) :
    (∃ p, scalarPrim o v = some p ∧ (p.inputs.any fun i => i.accepts t) = true ∧ p.returns = r) ↔ ScalarType o t r := by
  constructor
  · rintro ⟨p, hp, h, rfl⟩
    cases o <;> cases hp <;> cases t <;> simp [Prim1.inputs, VIn.accepts] at h <;>
      first
        | (refine .order ?_ ?_ <;> (simp [IsOrder, HasOrder]; done))
        | (refine .equality _ ?_; simp [IsEquality]; done)
        | (refine .arithmetic ?_; simp [IsArithmetic]; done)
  · intro h
    cases h with
    | order ho ht =>
      rcases ho with rfl | rfl | rfl | rfl <;> rcases ht with rfl | rfl | rfl <;>
        exact ⟨_, rfl, by simp [Prim1.inputs, VIn.accepts], rfl⟩
    | equality _ ho => rcases ho with rfl | rfl <;> exact ⟨_, rfl, by simp [Prim1.inputs, VIn.accepts], rfl⟩
    | arithmetic ho => rcases ho with rfl | rfl | rfl | rfl | rfl <;> exact ⟨_, rfl, by simp [Prim1.inputs, VIn.accepts], rfl⟩

theorem reflectedPrim_types (o : POp) (v : OCell) (t r : VFam) :
    (∃ p, reflectedPrim o v = some p ∧ (p.inputs.any fun i => i.accepts t) = true ∧ p.returns = r) ↔ ScalarType o t r := by
  constructor
  · rintro ⟨p, hp, h, rfl⟩
    cases o <;> cases hp <;> cases t <;> simp [Prim1.inputs, VIn.accepts] at h <;>
      first
        | (refine .order ?_ ?_ <;> (simp [IsOrder, HasOrder]; done))
        | (refine .equality _ ?_; simp [IsEquality]; done)
        | (refine .arithmetic ?_; simp [IsArithmetic]; done)
  · intro h
    cases h with
    | order ho ht =>
      rcases ho with rfl | rfl | rfl | rfl <;> rcases ht with rfl | rfl | rfl <;>
        exact ⟨_, rfl, by simp [Prim1.inputs, VIn.accepts], rfl⟩
    | equality _ ho => rcases ho with rfl | rfl <;> exact ⟨_, rfl, by simp [Prim1.inputs, VIn.accepts], rfl⟩
    | arithmetic ho => rcases ho with rfl | rfl | rfl | rfl | rfl <;> exact ⟨_, rfl, by simp [Prim1.inputs, VIn.accepts], rfl⟩

theorem forward_scalar_ok {o : POp} {f h : OFeat} {v : OCell} :
    forward o f (.scalar v) = .ok h ↔
      ∃ p, scalarPrim o v = some p ∧ (p.inputs.any fun i => i.accepts f.vtype) = true ∧ h = .un p f := by
  rw [forward_scalar]
  cases hs : scalarPrim o v with
  | none => simp
  | some p => simp only [mk1_ok]; simp

theorem reflected_scalar_ok {o : POp} {f h : OFeat} {v : OCell} :
    reflected o f v = .ok h ↔
      ∃ p, reflectedPrim o v = some p ∧ (p.inputs.any fun i => i.accepts f.vtype) = true ∧ h = .un p f := by
  rw [reflected_scalar]
  cases hs : reflectedPrim o v with
  | none => simp
  | some p => simp only [mk1_ok]; simp

theorem bind_ok {α β : Type} {x : Except PyErr α} {k : α → Except PyErr β} {b : β} (h : x.bind k = .ok b) :
    ∃ a, x = .ok a ∧ k a = .ok b := by
  cases x with
  | error e => cases h
  | ok a => exact ⟨a, rfl, h⟩

/-- What is built has the type the rules give. -/
theorem build_typeOf : ∀ (e : PExpr) (f : OFeat), build e = .ok f → TypeOf e f.entity f.vtype := by
  intro e
  induction e with
  | leaf l => intro f h; cases h; exact .leaf l
  | op o a b iha ihb =>
    intro h hb
    obtain ⟨f, hf, hb⟩ := bind_ok hb
    obtain ⟨g, hg, hb⟩ := bind_ok hb
    obtain ⟨he, ht⟩ := between_types.mp ⟨h, hb, rfl⟩
    rw [between_entity hb]
    have h2 := ihb g hg
    rw [← he] at h2
    exact .op (iha f hf) h2 ht
  | opScalar o a v iha =>
    intro h hb
    obtain ⟨f, hf, hb⟩ := bind_ok hb
    obtain ⟨p, hp, hi, rfl⟩ := forward_scalar_ok.mp hb
    exact .opScalar v (iha f hf) ((scalarPrim_types o v _ _).mp ⟨p, hp, hi, rfl⟩)
  | scalarOp o v a iha =>
    intro h hb
    obtain ⟨f, hf, hb⟩ := bind_ok hb
    obtain ⟨p, hp, hi, rfl⟩ := reflected_scalar_ok.mp hb
    exact .scalarOp v (iha f hf) ((reflectedPrim_types o v _ _).mp ⟨p, hp, hi, rfl⟩)
  | neg a iha =>
    intro h hb
    obtain ⟨f, hf, hb⟩ := bind_ok hb
    obtain ⟨hi, rfl⟩ := mk1_ok.mp hb
    have := iha f hf
    have ht : f.vtype = .numeric := by simpa [Prim1.inputs, VIn.accepts, eq_comm] using hi
    rw [ht] at this
    exact .neg this
  | abs a iha =>
    intro h hb
    obtain ⟨f, hf, hb⟩ := bind_ok hb
    obtain ⟨hi, rfl⟩ := mk1_ok.mp hb
    have := iha f hf
    have ht : f.vtype = .numeric := by simpa [Prim1.inputs, VIn.accepts, eq_comm] using hi
    rw [ht] at this
    exact .abs this
  | invert a iha =>
    intro h hb
    obtain ⟨f, hf, hb⟩ := bind_ok hb
    obtain ⟨hi, rfl⟩ := mk1_ok.mp hb
    have := iha f hf
    have ht : f.vtype = .boolean := by simpa [Prim1.inputs, VIn.accepts, eq_comm] using hi
    rw [ht] at this
    exact .invert this
  | isNull a iha =>
    intro h hb
    obtain ⟨f, hf, hb⟩ := bind_ok hb
    obtain ⟨hi, rfl⟩ := mk1_ok.mp hb
    exact .isNull (iha f hf)
  | isIn a l iha =>
    intro h hb
    obtain ⟨f, hf, hb⟩ := bind_ok hb
    obtain ⟨hi, rfl⟩ := mk1_ok.mp hb
    exact .isIn l (iha f hf)

/-- What has a type is built. -/
theorem typeOf_build {e : PExpr} {ent : String} {t : VFam} (h : TypeOf e ent t) :
    ∃ f, build e = .ok f ∧ f.entity = ent ∧ f.vtype = t := by
  induction h with
  | leaf l => exact ⟨_, rfl, rfl, rfl⟩
  | op _ _ ho iha ihb =>
    obtain ⟨f, hf, rfl, rfl⟩ := iha
    obtain ⟨g, hg, he, rfl⟩ := ihb
    obtain ⟨h, hh, hr⟩ := between_types.mpr ⟨he.symm, ho⟩
    exact ⟨h, by simp only [build, hf, hg, Except.bind]; exact hh, between_entity hh, hr⟩
  | opScalar v _ ho iha =>
    obtain ⟨f, hf, rfl, rfl⟩ := iha
    obtain ⟨p, hp, hi, hr⟩ := (scalarPrim_types _ v _ _).mpr ho
    exact ⟨.un p f, by simp only [build, hf, Except.bind]; exact forward_scalar_ok.mpr ⟨p, hp, hi, rfl⟩, rfl, hr⟩
  | scalarOp v _ ho iha =>
    obtain ⟨f, hf, rfl, rfl⟩ := iha
    obtain ⟨p, hp, hi, hr⟩ := (reflectedPrim_types _ v _ _).mpr ho
    exact ⟨.un p f, by simp only [build, hf, Except.bind]; exact reflected_scalar_ok.mpr ⟨p, hp, hi, rfl⟩, rfl, hr⟩
  | neg _ iha =>
    obtain ⟨f, hf, rfl, ht⟩ := iha
    exact ⟨.un .neg f, by simp only [build, hf, Except.bind]; exact mk1_ok.mpr ⟨by simp [Prim1.inputs, VIn.accepts, ht], rfl⟩, rfl, rfl⟩
  | abs _ iha =>
    obtain ⟨f, hf, rfl, ht⟩ := iha
    exact ⟨.un .abs f, by simp only [build, hf, Except.bind]; exact mk1_ok.mpr ⟨by simp [Prim1.inputs, VIn.accepts, ht], rfl⟩, rfl, rfl⟩
  | invert _ iha =>
    obtain ⟨f, hf, rfl, ht⟩ := iha
    exact ⟨.un .not f, by simp only [build, hf, Except.bind]; exact mk1_ok.mpr ⟨by simp [Prim1.inputs, VIn.accepts, ht], rfl⟩, rfl, rfl⟩
  | isNull _ iha =>
    obtain ⟨f, hf, rfl, ht⟩ := iha
    exact ⟨.un .isNull f, by simp only [build, hf, Except.bind]; exact mk1_ok.mpr ⟨by simp [Prim1.inputs, VIn.accepts], rfl⟩, rfl, rfl⟩
  | isIn l _ iha =>
    obtain ⟨f, hf, rfl, ht⟩ := iha
    exact ⟨.un (.isIn l) f, by simp only [build, hf, Except.bind]; exact mk1_ok.mpr ⟨by simp [Prim1.inputs, VIn.accepts], rfl⟩, rfl, rfl⟩

/-! ### Values -/

/-- A column with `n` cells of a type, which are related to the rows. -/
def ColumnOf (t : VFam) (n : Nat) (R : Nat → OCell → Prop) (r : Except PyErr OColumn) : Prop :=
  ∃ Z, r = .ok Z ∧ Z.cells.length = n ∧ (∀ c ∈ Z.cells, CellFits t c) ∧ ∀ i < n, ∃ v, Z.cells[i]? = some v ∧ R i v

theorem columnOf_bin (p : Prim2) {t u : VFam} {n : Nat} {R S : Nat → OCell → Prop} {rx ry : Except PyErr OColumn}
    (hin : (p.inputs.any fun i => i.1.accepts t && i.2.accepts u) = true) (hx : ColumnOf t n R rx) (hy : ColumnOf u n S ry) :
    ColumnOf p.returns n (fun i v => ∃ x y, R i x ∧ S i y ∧ Result p.op x y v) (rx.bind fun x => ry.bind fun y => p.fn x y) := by
  obtain ⟨X, rfl, hXl, hXf, hXR⟩ := hx
  obtain ⟨Y, rfl, hYl, hYf, hYS⟩ := hy
  obtain ⟨Z, hZ, hZl, hZg⟩ := zipCells_ok p.cell X Y n hXl hYl (fun x hx y hy => by
    obtain ⟨v, hv, _⟩ := p.cell_spec t u hin (hXf x hx) (hYf y hy)
    exact ⟨v, hv⟩)
  have get : ∀ i < n, ∃ x y v, X.cells[i]? = some x ∧ Y.cells[i]? = some y ∧ R i x ∧ S i y ∧ Z.cells[i]? = some v ∧
      Result p.op x y v ∧ CellFits p.returns v := by
    intro i hi
    obtain ⟨x, hx, hR⟩ := hXR i hi
    obtain ⟨y, hy, hS⟩ := hYS i hi
    obtain ⟨v, hv, hc⟩ := hZg i x y hx hy
    obtain ⟨w, hw, hr, hf⟩ := p.cell_spec t u hin (hXf x (List.mem_of_getElem? hx)) (hYf y (List.mem_of_getElem? hy))
    rw [hc] at hw; cases hw
    exact ⟨x, y, v, hx, hy, hR, hS, hv, hr, hf⟩
  refine ⟨Z, by simp only [Except.bind]; rw [p.fn_eq]; exact hZ, hZl, ?_, ?_⟩
  · intro c hc
    obtain ⟨i, hi, hci⟩ := List.getElem_of_mem hc
    obtain ⟨x, y, v, _, _, _, _, hv, _, hf⟩ := get i (by omega)
    rw [List.getElem?_eq_getElem hi, hci] at hv
    cases hv; exact hf
  · intro i hi
    obtain ⟨x, y, v, _, _, hR, hS, hv, hr, _⟩ := get i hi
    exact ⟨v, hv, x, y, hR, hS, hr⟩

theorem columnOf_un (p : Prim1) (g : OCell → Except PyErr OCell) (hg : ∀ X, p.fn X = mapCells g X) {t : VFam} {n : Nat}
    {R : Nat → OCell → Prop} {Q : OCell → OCell → Prop} {rx : Except PyErr OColumn}
    (hcell : ∀ x, CellFits t x → ∃ v, g x = .ok v ∧ Q x v ∧ CellFits p.returns v) (hx : ColumnOf t n R rx) :
    ColumnOf p.returns n (fun i v => ∃ x, R i x ∧ Q x v) (rx.bind p.fn) := by
  obtain ⟨X, rfl, hXl, hXf, hXR⟩ := hx
  obtain ⟨Z, hZ, hZl, hZg⟩ := mapCells_ok g X n hXl (fun x hx => by
    obtain ⟨v, hv, _⟩ := hcell x (hXf x hx)
    exact ⟨v, hv⟩)
  have get : ∀ i < n, ∃ x v, R i x ∧ Z.cells[i]? = some v ∧ Q x v ∧ CellFits p.returns v := by
    intro i hi
    obtain ⟨x, hx, hR⟩ := hXR i hi
    obtain ⟨v, hv, hc⟩ := hZg i x hx
    obtain ⟨w, hw, hr, hf⟩ := hcell x (hXf x (List.mem_of_getElem? hx))
    rw [hc] at hw; cases hw
    exact ⟨x, v, hR, hv, hr, hf⟩
  refine ⟨Z, by simp only [Except.bind]; rw [hg]; exact hZ, hZl, ?_, ?_⟩
  · intro c hc
    obtain ⟨i, hi, hci⟩ := List.getElem_of_mem hc
    obtain ⟨x, v, _, hv, _, hf⟩ := get i (by omega)
    rw [List.getElem?_eq_getElem hi, hci] at hv
    cases hv; exact hf
  · intro i hi
    obtain ⟨x, v, hR, hv, hr, _⟩ := get i hi
    exact ⟨v, hv, x, hR, hr⟩

theorem columnOf_mono {t : VFam} {n : Nat} {R S : Nat → OCell → Prop} {r : Except PyErr OColumn} (h : ColumnOf t n R r)
    (hRS : ∀ i v, R i v → S i v) : ColumnOf t n S r := by
  obtain ⟨Z, h1, h2, h3, h4⟩ := h
  exact ⟨Z, h1, h2, h3, fun i hi => by obtain ⟨v, hv, hR⟩ := h4 i hi; exact ⟨v, hv, hRS i v hR⟩⟩

/-- A scalar on the right or on the left, cell by cell. -/
theorem scalar_cell {o : POp} {t r : VFam} (hst : ScalarType o t r) {v x : OCell} (hv : ¬ IsEquality o → NotText v)
    (hx : CellFits t x) :
    (∃ w, cellOp o x v = .ok w ∧ Result o x v w ∧ CellFits r w) ∧ ∃ w, cellOp o v x = .ok w ∧ Result o v x w ∧ CellFits r w := by
  cases hst with
  | order ho ht =>
    have hne : o ≠ .mul := by intro h; rw [h] at ho; rcases ho with h | h | h | h <;> cases h
    have hnv : NotText v := hv (by intro h; rcases ho with rfl | rfl | rfl | rfl <;> rcases h with h | h <;> cases h)
    have hnx : NotText x := fits_notText (by rcases ht with rfl | rfl | rfl <;> simp) hx
    have one : ∀ a b, NotText a → NotText b → ∃ w, cellOp o a b = .ok w ∧ Result o a b w ∧ CellFits .boolean w := by
      intro a b ha hb
      obtain ⟨w, hw⟩ := result_exists (.inl ⟨ho, .inl ⟨ha, hb⟩⟩ : Acceptable o a b)
      have he := result_cellOp hw (fun h => absurd h hne)
      exact ⟨w, he, hw, cellOp_fits_boolean (.inl ho) he⟩
    exact ⟨one x v hnx hnv, one v x hnv hnx⟩
  | equality _ ho =>
    have hne : o ≠ .mul := by intro h; rw [h] at ho; rcases ho with h | h <;> cases h
    have one : ∀ a b, ∃ w, cellOp o a b = .ok w ∧ Result o a b w ∧ CellFits .boolean w := by
      intro a b
      obtain ⟨w, hw⟩ := result_exists (.inr (.inl ho) : Acceptable o a b)
      have he := result_cellOp hw (fun h => absurd h hne)
      exact ⟨w, he, hw, cellOp_fits_boolean (.inr ho) he⟩
    exact ⟨one x v, one v x⟩
  | arithmetic ho =>
    have hnv : NotText v := hv (by intro h; rcases ho with rfl | rfl | rfl | rfl | rfl <;> rcases h with h | h <;> cases h)
    have hnx : NotText x := fits_notText (by simp) hx
    have hnb : ∀ b, x ≠ .bool b := by rintro b rfl; simp [CellFits] at hx
    have one : ∀ a b, NotText a → NotText b → ¬ BothBool a b → ∃ w, cellOp o a b = .ok w ∧ Result o a b w ∧ CellFits .numeric w := by
      intro a b ha hb hn
      obtain ⟨w, hw⟩ := result_exists (.inr (.inr (.inl ⟨ho, ha, hb, fun _ => hn⟩)) : Acceptable o a b)
      have he := result_cellOp hw (fun _ => hn)
      exact ⟨w, he, hw, cellOp_fits_numeric ho he⟩
    exact ⟨one x v hnx hnv (fun ⟨a, _, h, _⟩ => hnb a h), one v x hnv hnx (fun ⟨_, b, _, h⟩ => hnb b h)⟩

theorem scalarPrim_fn {o : POp} {v : OCell} {p : Prim1} (h : scalarPrim o v = some p) (X : OColumn) :
    p.fn X = mapCells (fun a => cellOp o a v) X := by
  cases o <;> cases h <;> rfl

/-- The function of a reflected primitive: sums and products are computed with the feature first. -/
theorem reflectedPrim_fn {o : POp} {v : OCell} {p : Prim1} (h : reflectedPrim o v = some p) (X : OColumn) :
    p.fn X = mapCells (fun a => if o = .add ∨ o = .mul ∨ o = .eq ∨ o = .ne then cellOp o a v else cellOp o v a) X := by
  cases o <;> cases h <;> rfl

theorem neg_cell {x : OCell} (hx : CellFits .numeric x) :
    ∃ v, arith Ext.mul x (.num (.fin (-1))) = .ok v ∧ Result .sub (.num (.fin 0)) x v ∧ CellFits .numeric v := by
  have hn : NotText (.num (.fin 0)) := by intro s h; cases h
  rcases hx with rfl | ⟨y, rfl⟩
  · exact ⟨.missing, rfl, .missing (.inr (.inl rfl)) ⟨hn, (by intro s h; cases h), .inr rfl⟩, .inl rfl⟩
  · refine ⟨OCell.ofNum (y.mul (.fin (-1))), arith_holds (.num y) (.num _), ?_, ofNum_fits _⟩
    have hs := sum_exists (.fin 0) y.neg
    have e : (Ext.fin 0).add y.neg = y.mul (.fin (-1)) := by
      cases y with
      | fin q =>
        simp only [Ext.neg, Ext.add, Ext.mul, Option.some.injEq, Ext.fin.injEq]; grind
      | posInf =>
        have h1 : ¬ (-1 : Rat) = 0 := by decide +kernel
        have h2 : ¬ (0 : Rat) < -1 := by decide +kernel
        simp [Ext.neg, Ext.add, Ext.mul, infSign, h1, h2]
      | negInf =>
        have h1 : ¬ (1 : Rat) = 0 := by decide +kernel
        have h2 : (0 : Rat) < 1 := by decide +kernel
        simp [Ext.neg, Ext.add, Ext.mul, infSign, h1, h2]
    rw [e] at hs
    exact .sub (.num _) (.num y) (opposite_of y) hs

theorem abs_cell {x : OCell} (hx : CellFits .numeric x) :
    ∃ v, (x.asNum.map fun x => OCell.ofNum (x.map Ext.abs)) = .ok v ∧ Magnitude x v ∧ CellFits .numeric v := by
  rcases hx with rfl | ⟨y, rfl⟩
  · exact ⟨.missing, rfl, .missing, .inl rfl⟩
  · refine ⟨.num y.abs, rfl, ?_, .inr ⟨_, rfl⟩⟩
    cases y with
    | fin q =>
      by_cases hq : q < 0
      · simpa [Ext.abs, hq] using Magnitude.negative (by grind : q ≤ 0)
      · simpa [Ext.abs, hq] using Magnitude.positive (by grind : (0 : Rat) ≤ q)
    | posInf => exact .infinite (.inl rfl)
    | negInf => exact .infinite (.inr rfl)

/-- The column of a feature that an expression builds holds the values of the expression. -/
theorem build_column (data : Leaf → OColumn) (n : Nat) (hd : DataFits data n) : ∀ (e : PExpr) (f : OFeat), build e = .ok f →
    ScalarsFit e → ColumnOf f.vtype n (fun i v => Means (rowAt data i) e v) (f.column data) := by
  intro e
  induction e with
  | leaf l =>
    intro f h _
    cases h
    obtain ⟨hl, hf⟩ := hd l
    refine ⟨data l, rfl, hl, hf, fun i hi => ?_⟩
    have hi' : i < (data l).cells.length := by omega
    exact ⟨(data l).cells[i], List.getElem?_eq_getElem hi', by simp [Means, rowAt, List.getElem?_eq_getElem hi']⟩
  | op o a b iha ihb =>
    intro h hb hs
    obtain ⟨f, hf, hb⟩ := bind_ok hb
    obtain ⟨g, hg, hb⟩ := bind_ok hb
    have ha := iha f hf hs.1
    have hb' := ihb g hg hs.2
    rcases between_cases o f g with e | ⟨o', hm, e⟩
    · rw [e, forward_feature, mk2_ok] at hb
      obtain ⟨_, hin, rfl⟩ := hb
      refine columnOf_mono (columnOf_bin _ hin ha hb') ?_
      rintro i v ⟨x, y, hx, hy, hr⟩
      rw [primFor_op] at hr
      exact ⟨x, y, hx, hy, hr⟩
    · rw [e, forward_feature, mk2_ok] at hb
      obtain ⟨_, hin, rfl⟩ := hb
      refine columnOf_mono (columnOf_bin _ hin hb' ha) ?_
      rintro i v ⟨x, y, hx, hy, hr⟩
      rw [primFor_op] at hr
      exact ⟨y, x, hy, hx, result_mirrored (mirrored_symm hm) hr⟩
  | opScalar o a v iha =>
    intro h hb hs
    obtain ⟨f, hf, hb⟩ := bind_ok hb
    obtain ⟨p, hp, hi, rfl⟩ := forward_scalar_ok.mp hb
    have hst := (scalarPrim_types o v _ _).mp ⟨p, hp, hi, rfl⟩
    exact columnOf_un p _ (scalarPrim_fn hp) (fun x hx => (scalar_cell hst hs.2 hx).1) (iha f hf hs.1)
  | scalarOp o v a iha =>
    intro h hb hs
    obtain ⟨f, hf, hb⟩ := bind_ok hb
    obtain ⟨p, hp, hi, rfl⟩ := reflected_scalar_ok.mp hb
    have hst := (reflectedPrim_types o v _ _).mp ⟨p, hp, hi, rfl⟩
    refine columnOf_un p _ (reflectedPrim_fn hp) (Q := fun x w => Result o v x w) (fun x hx => ?_) (iha f hf hs.1)
    by_cases ho : o = .add ∨ o = .mul ∨ o = .eq ∨ o = .ne
    · simp only [if_pos ho]
      obtain ⟨w, h1, h2, h3⟩ := (scalar_cell hst hs.2 hx).1
      refine ⟨w, h1, ?_, h3⟩
      rcases ho with rfl | rfl | rfl | rfl <;> exact result_mirrored rfl h2
    · simp only [if_neg ho]
      exact (scalar_cell hst hs.2 hx).2
  | neg a iha =>
    intro h hb hs
    obtain ⟨f, hf, hb⟩ := bind_ok hb
    obtain ⟨hi, rfl⟩ := mk1_ok.mp hb
    have ht : f.vtype = .numeric := by simpa [Prim1.inputs, VIn.accepts, eq_comm] using hi
    exact columnOf_un .neg _ (fun _ => rfl) (fun x hx => neg_cell (ht ▸ hx)) (iha f hf hs)
  | abs a iha =>
    intro h hb hs
    obtain ⟨f, hf, hb⟩ := bind_ok hb
    obtain ⟨hi, rfl⟩ := mk1_ok.mp hb
    have ht : f.vtype = .numeric := by simpa [Prim1.inputs, VIn.accepts, eq_comm] using hi
    exact columnOf_un .abs _ (fun _ => rfl) (fun x hx => abs_cell (ht ▸ hx)) (iha f hf hs)
  | invert a iha =>
    intro h hb hs
    obtain ⟨f, hf, hb⟩ := bind_ok hb
    obtain ⟨hi, rfl⟩ := mk1_ok.mp hb
    have ht : f.vtype = .boolean := by simpa [Prim1.inputs, VIn.accepts, eq_comm] using hi
    refine columnOf_mono (columnOf_un .not _ (fun _ => rfl)
      (Q := fun x v => ∃ p : Bool, x = .bool p ∧ v = .bool (!p)) (fun x hx => ?_) (iha f hf hs)) ?_
    · rw [ht] at hx
      obtain ⟨p, rfl⟩ := hx
      exact ⟨.bool (!p), rfl, ⟨p, rfl, rfl⟩, ⟨_, rfl⟩⟩
    · rintro i v ⟨x, hx, p, rfl, rfl⟩
      exact ⟨p, hx, rfl⟩
  | isNull a iha =>
    intro h hb hs
    obtain ⟨f, hf, hb⟩ := bind_ok hb
    obtain ⟨hi, rfl⟩ := mk1_ok.mp hb
    exact columnOf_un .isNull _ (fun _ => rfl) (fun x hx => ⟨_, rfl, ⟨_, rfl, by simp⟩, ⟨_, rfl⟩⟩) (iha f hf hs)
  | isIn a l iha =>
    intro h hb hs
    obtain ⟨f, hf, hb⟩ := bind_ok hb
    obtain ⟨hi, rfl⟩ := mk1_ok.mp hb
    exact columnOf_un (.isIn l) _ (fun _ => rfl) (fun x hx => ⟨_, rfl, ⟨_, rfl, by simp⟩, ⟨_, rfl⟩⟩) (iha f hf hs)

/-- An expression has at most one value in a row. -/
theorem means_unique (row : Leaf → OCell) : ∀ (e : PExpr) (v w : OCell), Means row e v → Means row e w → v = w := by
  intro e
  induction e with
  | leaf l => intro v w h h'; rw [show v = row l from h, show w = row l from h']
  | op o a b iha ihb =>
    rintro v w ⟨x, y, hx, hy, hr⟩ ⟨x', y', hx', hy', hr'⟩
    rw [iha x x' hx hx', ihb y y' hy hy'] at hr
    exact result_unique hr hr'
  | opScalar o a c iha =>
    rintro v w ⟨x, hx, hr⟩ ⟨x', hx', hr'⟩
    rw [iha x x' hx hx'] at hr
    exact result_unique hr hr'
  | scalarOp o c a iha =>
    rintro v w ⟨x, hx, hr⟩ ⟨x', hx', hr'⟩
    rw [iha x x' hx hx'] at hr
    exact result_unique hr hr'
  | neg a iha =>
    rintro v w ⟨x, hx, hr⟩ ⟨x', hx', hr'⟩
    rw [iha x x' hx hx'] at hr
    exact result_unique hr hr'
  | abs a iha =>
    rintro v w ⟨x, hx, hr⟩ ⟨x', hx', hr'⟩
    rw [iha x x' hx hx'] at hr
    cases hr with
    | missing => cases hr' ; rfl
    | positive h =>
      cases hr' with
      | positive => rfl
      | negative h' => congr 2; grind
      | infinite h' => exact absurd h' infinite_not_fin
    | negative h =>
      cases hr' with
      | positive h' => congr 2; grind
      | negative h' => rfl
      | infinite h' => exact absurd h' infinite_not_fin
    | infinite h =>
      cases hr' with
      | positive h' => exact absurd h infinite_not_fin
      | negative h' => exact absurd h infinite_not_fin
      | infinite h' => rfl
  | invert a iha =>
    rintro v w ⟨p, hx, rfl⟩ ⟨q, hx', rfl⟩
    have := iha _ _ hx hx'
    cases this; rfl
  | isNull a iha =>
    rintro v w ⟨x, hx, p, rfl, hp⟩ ⟨x', hx', q, rfl, hq⟩
    rw [iha x x' hx hx'] at hp
    rw [bool_of_iff hp hq]
  | isIn a l iha =>
    rintro v w ⟨x, hx, p, rfl, hp⟩ ⟨x', hx', q, rfl, hq⟩
    rw [iha x x' hx hx'] at hp
    rw [bool_of_iff hp hq]

end FT
