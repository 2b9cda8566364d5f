import Verif.Lemmas.Operators4
/-!
# Lemmas about operators: order of the inputs, and names
-/
namespace FT
open Spec

/-! ### The order of the inputs -/

theorem ext_add_comm (x y : Ext) : x.add y = y.add x := by
  cases x <;> cases y <;> simp [Ext.add, Rat.add_comm]

theorem ext_mul_comm (x y : Ext) : x.mul y = y.mul x := by
  cases x <;> cases y <;> simp [Ext.mul, Rat.mul_comm]

theorem asNum_error {a : OCell} {e : PyErr} (h : a.asNum = .error e) : e = .typeError := by
  cases a <;> cases h; rfl

theorem arith_comm {f : Ext → Ext → Option Ext} (hf : ∀ x y, f x y = f y x) (a b : OCell) : arith f a b = arith f b a := by
  unfold arith
  cases ha : a.asNum with
  | error e =>
    cases asNum_error ha
    cases hb : b.asNum with
    | error e' => cases asNum_error hb; rfl
    | ok y => rfl
  | ok x =>
    cases hb : b.asNum with
    | error e' => rfl
    | ok y =>
      cases x <;> cases y <;> simp [Except.bind, hf]

theorem eqCell_comm (a b : OCell) : eqCell a b = eqCell b a := by
  cases a <;> cases b <;> simp [eqCell, eq_comm]

theorem bitAndCell_comm (a b : OCell) : bitAndCell a b = bitAndCell b a := by
  cases a <;> cases b <;> simp [bitAndCell, Bool.and_comm]

theorem zip_mapM_comm (f g : OCell → OCell → Except PyErr OCell) : ∀ (xs ys : List OCell),
    (∀ x ∈ xs, ∀ y ∈ ys, f x y = g y x) → (List.zip xs ys).mapM (fun p => f p.1 p.2) = (List.zip ys xs).mapM (fun p => g p.1 p.2)
  | [], ys, _ => by cases ys <;> rfl
  | x :: xs, [], _ => rfl
  | x :: xs, y :: ys, h => by
    simp only [List.zip_cons_cons, List.mapM_cons]
    rw [h x (by simp) y (by simp), zip_mapM_comm f g xs ys (fun a ha b hb => h a (by simp [ha]) b (by simp [hb]))]

theorem zipCells_comm {f : OCell → OCell → Except PyErr OCell} {X Y : OColumn}
    (h : ∀ x ∈ X.cells, ∀ y ∈ Y.cells, f x y = f y x) : zipCells f X Y = zipCells f Y X := by
  unfold zipCells
  rw [zip_mapM_comm f f X.cells Y.cells h]

theorem Prim2.fn_comm {p : Prim2} (hc : p.commutative = true) (hs : ∀ c, p ≠ .sub c) (hd : ∀ c, p ≠ .div c) {X Y : OColumn}
    (hb : p = .and ∨ p = .or → ∀ c, c ∈ X.cells ∨ c ∈ Y.cells → ∃ b, c = .bool b) : p.fn X Y = p.fn Y X := by
  rw [p.fn_eq, p.fn_eq]
  apply zipCells_comm
  intro x hx y hy
  have hbool : p = .and ∨ p = .or → (∃ b, x = .bool b) ∧ ∃ b, y = .bool b := fun h => ⟨hb h x (.inl hx), hb h y (.inr hy)⟩
  cases p with
  | sub c => exact absurd rfl (hs c)
  | div c => exact absurd rfl (hd c)
  | eq => show Except.ok (OCell.bool (eqCell x y)) = _; rw [eqCell_comm]; rfl
  | ne => show Except.ok (OCell.bool (!eqCell x y)) = _; rw [eqCell_comm]; rfl
  | add => exact arith_comm ext_add_comm x y
  | mul => exact arith_comm ext_mul_comm x y
  | mulBool => exact bitAndCell_comm x y
  | and =>
    obtain ⟨⟨a, rfl⟩, ⟨b, rfl⟩⟩ := hbool (.inl rfl)
    cases a <;> cases b <;> rfl
  | or =>
    obtain ⟨⟨a, rfl⟩, ⟨b, rfl⟩⟩ := hbool (.inr rfl)
    cases a <;> cases b <;> rfl
  | _ => cases hc

/-! ### Names -/

/-- Splitting a list at its first special element. -/
theorem split_first {α : Type} {S : α → Prop} : ∀ {a a' : List α} {c c' : α} {r r' : List α}, a ++ c :: r = a' ++ c' :: r' →
    (∀ x ∈ a, ¬ S x) → (∀ x ∈ a', ¬ S x) → S c → S c' → a = a' ∧ c = c' ∧ r = r'
  | [], [], _, _, _, _, h, _, _, _, _ => by simpa using h
  | [], y :: a', c, c', r, r', h, _, h2, h3, _ => by
    simp only [List.nil_append, List.cons_append, List.cons.injEq] at h
    exact absurd (h.1 ▸ h3) (h2 y (by simp))
  | x :: a, [], c, c', r, r', h, h1, _, _, h4 => by
    simp only [List.nil_append, List.cons_append, List.cons.injEq] at h
    exact absurd (h.1 ▸ h4) (h1 x (by simp))
  | x :: a, y :: a', c, c', r, r', h, h1, h2, h3, h4 => by
    simp only [List.cons_append, List.cons.injEq] at h
    obtain ⟨h5, h6, h7⟩ := split_first h.2 (fun z hz => h1 z (by simp [hz])) (fun z hz => h2 z (by simp [hz])) h3 h4
    exact ⟨by rw [h.1, h5], h6, h7⟩

/-- What stands at a side of an infix operator. -/
inductive Side where
  | leaf (l : Leaf)
  | scalar (v : OCell)

/-- The written form of a feature with at most one operator. -/
inductive Form where
  | leaf (l : Leaf)
  | infix (a : Side) (o : POp) (b : Side)
  | unary (p : Prim1) (a : Leaf)
  | isIn (a : Leaf) (l : List OCell)
  | logic (o : POp) (a b : Leaf)

/-- The sign of an operator. -/
def sign : POp → List Char
  | .lt => ['<'] | .le => ['<', '='] | .gt => ['>'] | .ge => ['>', '='] | .eq => ['='] | .ne => ['!', '=']
  | .add => ['+'] | .sub => ['-'] | .mul => ['*'] | .div => ['/'] | .mod => ['%'] | .and => ['&'] | .or => ['|']

theorem sign_inj {o o' : POp} (h : sign o = sign o') : o = o' := by
  cases o <;> cases o' <;> first | rfl | (exfalso; revert h; decide)

theorem sign_space (o : POp) : ∀ x ∈ sign o, ¬ x = ' ' := by
  cases o <;> decide

/-- The head of a unary form. -/
def headOf : Prim1 → List Char
  | .abs => ['A', 'B', 'S', 'O', 'L', 'U', 'T', 'E'] | .neg => ['-'] | .not => ['N', 'O', 'T'] | .isNull => ['I', 'S', '_', 'N', 'U', 'L', 'L'] | _ => []

/-- The head of `AND` and `OR`. -/
def headOf2 : POp → List Char
  | .and => ['A', 'N', 'D'] | .or => ['O', 'R'] | _ => []

/-- The text after the name in `isin`. -/
def isinChars : List Char := ['.', 'i', 's', 'i', 'n']

section
variable (text : OCell → String) (listText : List OCell → String)

/-- The text of a side. -/
def Side.chars : Side → List Char
  | .leaf l => l.name.toList
  | .scalar v => (text v).toList

/-- The text of a form. -/
def Form.chars : Form → List Char
  | .leaf l => l.name.toList
  | .infix a o b => a.chars text ++ ' ' :: (sign o ++ ' ' :: b.chars text)
  | .unary p a => headOf p ++ '(' :: (a.name.toList ++ [')'])
  | .isIn a l => (a.name.toList ++ isinChars) ++ '(' :: ((listText l).toList ++ [')'])
  | .logic o a b => headOf2 o ++ '(' :: ((a.name.toList ++ [',']) ++ ' ' :: (b.name.toList ++ [')']))

end

/-- The feature of a form. -/
def Form.feature : Form → OFeat
  | .leaf l => .leaf l
  | .infix (.leaf a) o (.leaf b) => .bin (primFor o a.vtype b.vtype) (.leaf a) (.leaf b)
  | .infix (.leaf a) o (.scalar v) => .un ((scalarPrim o v).getD .abs) (.leaf a)
  | .infix (.scalar v) o (.leaf a) => .un ((reflectedPrim o v).getD .abs) (.leaf a)
  | .infix (.scalar _) _ (.scalar _) => .leaf ⟨.other, "", "", .other⟩
  | .unary p a => .un p (.leaf a)
  | .isIn a l => .un (.isIn l) (.leaf a)
  | .logic o a b => .bin (primFor o a.vtype b.vtype) (.leaf a) (.leaf b)

/-- Sides made of given leaves and scalars. -/
def Side.From (L : Leaf → Prop) (V : OCell → Prop) : Side → Prop
  | .leaf l => L l
  | .scalar v => V v

/-- Sides that are not text. -/
def Side.NoText : Side → Prop
  | .leaf _ => True
  | .scalar v => NotText v

/-- Forms made of given leaves and scalars. -/
def Form.From (L : Leaf → Prop) (V : OCell → Prop) : Form → Prop
  | .leaf l => L l
  | .infix a _ b => a.From L V ∧ b.From L V ∧ a.NoText
  | .unary p a => L a ∧ (p = .abs ∨ p = .neg ∨ p = .not ∨ p = .isNull)
  | .isIn a l => L a ∧ ∀ v ∈ l, V v
  | .logic o a b => L a ∧ L b ∧ (o = .and ∨ o = .or)

section
variable {L : Leaf → Prop} {V : OCell → Prop} {text : OCell → String} {listText : List OCell → String}

theorem side_inj (D : TellApart L V text listText) (hL : ∀ a b, L a → L b → a.entity = b.entity) {a b : Side} (ha : a.From L V)
    (hb : b.From L V) (h : a.chars text = b.chars text) : a = b := by
  cases a with
  | leaf l =>
    cases b with
    | leaf m => rw [D.leaves l m ha hb (hL l m ha hb) (String.toList_inj.mp h)]
    | scalar v => exact absurd (String.toList_inj.mp h).symm (D.apart v l hb ha)
  | scalar v =>
    cases b with
    | leaf m => exact absurd (String.toList_inj.mp h) (D.apart v m ha hb)
    | scalar w => rw [D.scalars v w ha hb (String.toList_inj.mp h)]

/-- A space or an opening parenthesis. -/
def Special (c : Char) : Prop := c = ' ' ∨ c = '('

theorem plain_special {s : String} (h : Plain s) : ∀ x ∈ s.toList, ¬ Special x := by
  rintro x hx (rfl | rfl)
  · exact h.1 hx
  · exact h.2 hx

theorem side_special (D : TellApart L V text listText) {a : Side} (ha : a.From L V) (hn : a.NoText) :
    ∀ x ∈ a.chars text, ¬ Special x := by
  cases a with
  | leaf l => exact plain_special (D.names l ha)
  | scalar v => exact plain_special (D.plain v ha hn)

/-- The forms with a parenthesis: head and rest. -/
def Form.call (listText : List OCell → String) : Form → Option (List Char × List Char)
  | .unary p a => some (headOf p, a.name.toList ++ [')'])
  | .isIn a l => some (a.name.toList ++ isinChars, (listText l).toList ++ [')'])
  | .logic o a b => some (headOf2 o, (a.name.toList ++ [',']) ++ ' ' :: (b.name.toList ++ [')']))
  | _ => none

theorem call_chars {F : Form} {x : List Char × List Char} (h : F.call listText = some x) :
    F.chars text listText = x.1 ++ '(' :: x.2 := by
  cases F <;> cases h <;> rfl

theorem head_special {p : Prim1} : ∀ c ∈ headOf p, ¬ Special c := by
  cases p <;> simp [headOf, Special]

theorem head2_special {o : POp} : ∀ c ∈ headOf2 o, ¬ Special c := by
  cases o <;> simp [headOf2, Special]

theorem isin_special : ∀ c ∈ isinChars, ¬ Special c := by
  simp [isinChars, Special]

theorem call_special (D : TellApart L V text listText) {F : Form} (hF : F.From L V) {x : List Char × List Char}
    (h : F.call listText = some x) : ∀ c ∈ x.1, ¬ Special c := by
  cases F with
  | leaf l => cases h
  | «infix» a o b => cases h
  | unary p a => cases h; exact head_special
  | isIn a l =>
    cases h
    intro c hc
    rcases List.mem_append.mp hc with hc | hc
    · exact plain_special (D.names a hF.1) c hc
    · exact isin_special c hc
  | logic o a b => cases h; exact head2_special

theorem isin_head (a : List Char) (p : Prim1) : a ++ isinChars ≠ headOf p := by
  intro h
  have := congrArg List.getLast? h
  revert this
  cases p <;> simp [headOf, isinChars]

theorem isin_head2 (a : List Char) (o : POp) : a ++ isinChars ≠ headOf2 o := by
  intro h
  have := congrArg List.getLast? h
  revert this
  cases o <;> simp [headOf2, isinChars]

theorem head_apart {p : Prim1} (h : p = .abs ∨ p = .neg ∨ p = .not ∨ p = .isNull) (o : POp) : headOf p ≠ headOf2 o := by
  rcases h with rfl | rfl | rfl | rfl <;> cases o <;> decide

theorem head_inj {p q : Prim1} (h : p = .abs ∨ p = .neg ∨ p = .not ∨ p = .isNull) (h' : q = .abs ∨ q = .neg ∨ q = .not ∨ q = .isNull)
    (e : headOf p = headOf q) : p = q := by
  rcases h with rfl | rfl | rfl | rfl <;> rcases h' with rfl | rfl | rfl | rfl <;>
    first | rfl | (exfalso; revert e; decide)

theorem head2_inj {o o' : POp} (h : o = .and ∨ o = .or) (h' : o' = .and ∨ o' = .or) (e : headOf2 o = headOf2 o') : o = o' := by
  rcases h with rfl | rfl <;> rcases h' with rfl | rfl <;> first | rfl | (exfalso; revert e; decide)

theorem form_inj (D : TellApart L V text listText) (hL : ∀ a b, L a → L b → a.entity = b.entity) {F G : Form}
    (hF : F.From L V) (hG : G.From L V) (h : F.chars text listText = G.chars text listText) : F = G := by
  have leafEq : ∀ {a b : Leaf}, L a → L b → a.name.toList = b.name.toList → a = b := fun ha hb e =>
    D.leaves _ _ ha hb (hL _ _ ha hb) (String.toList_inj.mp e)
  have leafNo : ∀ {a : Leaf} {x y : List Char} {c : Char}, L a → Special c → a.name.toList ≠ x ++ c :: y := by
    intro a x y c ha hc e
    exact plain_special (D.names a ha) c (by rw [e]; simp) hc
  have callNo : ∀ {F G : Form} {x}, F.From L V → G.From L V → F.call listText = some x → G.call listText = none →
      F.chars text listText ≠ G.chars text listText := by
    intro F G x hF hG hx hn e
    rw [call_chars hx] at e
    cases G with
    | leaf l => exact leafNo hG (.inr rfl) e.symm
    | «infix» a o b =>
      obtain ⟨_, h2, _⟩ := split_first e (call_special D hF hx) (side_special D hG.1 hG.2.2) (.inr rfl) (.inl rfl)
      cases h2
    | _ => cases hn
  have callSame : ∀ {F G : Form} {x y}, F.From L V → G.From L V → F.call listText = some x → G.call listText = some y →
      F.chars text listText = G.chars text listText → x = y := by
    intro F G x y hF hG hx hy e
    rw [call_chars hx, call_chars hy] at e
    obtain ⟨h1, _, h3⟩ := split_first e (call_special D hF hx) (call_special D hG hy) (.inr rfl) (.inr rfl)
    exact Prod.ext h1 h3
  cases hx : F.call listText with
  | some x =>
    cases hy : G.call listText with
    | none => exact absurd h (callNo hF hG hx hy)
    | some y =>
      have e := callSame hF hG hx hy h
      subst e
      have hF' := hx
      rw [← hy] at hx
      clear hy h
      cases F with
      | leaf l => cases hF'
      | «infix» a o b => cases hF'
      | unary p a =>
        cases G with
        | leaf l => cases hx
        | «infix» _ _ _ => cases hx
        | unary q b =>
          simp only [Form.call, Option.some.injEq, Prod.mk.injEq, List.append_cancel_right_eq] at hx
          rw [leafEq hF.1 hG.1 hx.2, head_inj hF.2 hG.2 hx.1]
        | isIn b l =>
          simp only [Form.call, Option.some.injEq, Prod.mk.injEq] at hx
          exact absurd hx.1.symm (isin_head _ _)
        | logic o b c =>
          simp only [Form.call, Option.some.injEq, Prod.mk.injEq] at hx
          exact absurd hx.1 (head_apart hF.2 o)
      | isIn a l =>
        cases G with
        | leaf l => cases hx
        | «infix» _ _ _ => cases hx
        | unary q b =>
          simp only [Form.call, Option.some.injEq, Prod.mk.injEq] at hx
          exact absurd hx.1 (isin_head _ _)
        | isIn b m =>
          simp only [Form.call, Option.some.injEq, Prod.mk.injEq, List.append_cancel_right_eq] at hx
          rw [leafEq hF.1 hG.1 hx.1, D.lists l m hF.2 hG.2 (String.toList_inj.mp hx.2)]
        | logic o b c =>
          simp only [Form.call, Option.some.injEq, Prod.mk.injEq] at hx
          exact absurd hx.1 (isin_head2 _ _)
      | logic o a b =>
        cases G with
        | leaf l => cases hx
        | «infix» _ _ _ => cases hx
        | unary q c =>
          simp only [Form.call, Option.some.injEq, Prod.mk.injEq] at hx
          exact absurd hx.1.symm (head_apart hG.2 o)
        | isIn c l =>
          simp only [Form.call, Option.some.injEq, Prod.mk.injEq] at hx
          exact absurd hx.1.symm (isin_head2 _ _)
        | logic o' c d =>
          simp only [Form.call, Option.some.injEq, Prod.mk.injEq] at hx
          have noSpace : ∀ {l : Leaf}, L l → ∀ x ∈ l.name.toList ++ [','], ¬ x = ' ' := by
            intro l hl x hx
            rcases List.mem_append.mp hx with hx | hx
            · exact fun e => plain_special (D.names l hl) x hx (.inl e)
            · rw [List.mem_singleton.mp hx]; decide
          obtain ⟨h1, _, h3⟩ := split_first (S := fun x => x = ' ') hx.2 (noSpace hF.1) (noSpace hG.1) rfl rfl
          rw [head2_inj hF.2.2 hG.2.2 hx.1, leafEq hF.1 hG.1 (List.append_cancel_right h1),
            leafEq hF.2.1 hG.2.1 (List.append_cancel_right h3)]
  | none =>
    cases hy : G.call listText with
    | some y => exact absurd h.symm (callNo hG hF hy hx)
    | none =>
      cases F with
      | leaf l =>
        cases G with
        | leaf m => rw [leafEq hF hG h]
        | «infix» a o b => exact absurd h (leafNo hF (.inl rfl))
        | _ => cases hy
      | «infix» a o b =>
        cases G with
        | leaf m => exact absurd h.symm (leafNo hG (.inl rfl))
        | «infix» a' o' b' =>
          obtain ⟨h1, _, h3⟩ := split_first h (side_special D hF.1 hF.2.2) (side_special D hG.1 hG.2.2) (.inl rfl) (.inl rfl)
          obtain ⟨h4, _, h6⟩ := split_first h3 (sign_space o) (sign_space o') rfl rfl
          rw [side_inj D hL hF.1 hG.1 h1, sign_inj h4, side_inj D hL hF.2.1 hG.2.1 h6]
        | _ => cases hy
      | _ => cases hx

theorem bin_chars {o : POp} (a b : Leaf) (h : o ≠ .and ∧ o ≠ .or) :
    ((OFeat.bin (primFor o a.vtype b.vtype) (.leaf a) (.leaf b)).name text listText).toList =
      (Form.infix (.leaf a) o (.leaf b)).chars text listText := by
  by_cases hm : o = .mul
  · subst hm
    by_cases hb : a.vtype = .boolean ∧ b.vtype = .boolean
    · simp [primFor, hb, OFeat.name, Prim2.genName, Form.chars, Side.chars, sign]
    · simp [primFor, if_neg hb, OFeat.name, Prim2.genName, Form.chars, Side.chars, sign]
  · cases o
    case mul => exact absurd rfl hm
    case and => exact absurd rfl h.1
    case or => exact absurd rfl h.2
    all_goals simp [primFor, OFeat.name, Prim2.genName, Form.chars, Side.chars, sign]

theorem logic_chars {o : POp} (a b : Leaf) (h : o = .and ∨ o = .or) :
    ((OFeat.bin (primFor o a.vtype b.vtype) (.leaf a) (.leaf b)).name text listText).toList =
      (Form.logic o a b).chars text listText := by
  rcases h with rfl | rfl <;> simp [primFor, OFeat.name, Prim2.genName, Form.chars, headOf2]

theorem forward_form {o : POp} {a b : Leaf} {f : OFeat} (h : forward o (.leaf a) (.feature (.leaf b)) = .ok f) (ha : L a) (hb : L b) :
    ∃ F : Form, F.From L V ∧ F.feature = f ∧ (f.name text listText).toList = F.chars text listText := by
  rw [forward_feature, mk2_ok] at h
  obtain ⟨_, _, rfl⟩ := h
  by_cases ho : o = .and ∨ o = .or
  · exact ⟨.logic o a b, ⟨ha, hb, ho⟩, rfl, logic_chars a b ho⟩
  · exact ⟨.infix (.leaf a) o (.leaf b), ⟨ha, hb, trivial⟩, rfl, bin_chars a b ⟨fun e => ho (.inl e), fun e => ho (.inr e)⟩⟩

theorem scalarPrim_chars {o : POp} {v : OCell} {p : Prim1} (h : scalarPrim o v = some p) (a : Leaf) :
    ((OFeat.un p (.leaf a)).name text listText).toList = (Form.infix (.leaf a) o (.scalar v)).chars text listText := by
  cases o <;> cases h <;> simp [OFeat.name, Prim1.genName, Form.chars, Side.chars, sign]

/-- A simple expression that builds a feature has a form. -/
theorem simple_form {e : PExpr} {f : OFeat} (hs : Simple L V e) (hb : build e = .ok f) :
    ∃ F : Form, F.From L V ∧ F.feature = f ∧ (f.name text listText).toList = F.chars text listText := by
  cases hs with
  | leaf hl => cases hb; exact ⟨.leaf _, hl, rfl, rfl⟩
  | @op a b o ha hb' =>
    rcases between_cases o (.leaf a) (.leaf b) with h | ⟨o', _, h⟩
    · exact forward_form (h.symm.trans hb) ha hb'
    · exact forward_form (h.symm.trans hb) hb' ha
  | @opScalar a v o ha hv =>
    obtain ⟨p, hp, _, rfl⟩ := forward_scalar_ok.mp hb
    exact ⟨.infix (.leaf a) o (.scalar v), ⟨ha, hv, trivial⟩, by simp [Form.feature, hp], scalarPrim_chars hp a⟩
  | @scalarOp a v o ha hv hn =>
    obtain ⟨p, hp, _, rfl⟩ := reflected_scalar_ok.mp hb
    by_cases ho : o = .sub ∨ o = .div ∨ o = .mod
    · refine ⟨.infix (.scalar v) o (.leaf a), ⟨hv, ha, hn⟩, by simp [Form.feature, hp], ?_⟩
      rcases ho with rfl | rfl | rfl <;> cases hp <;> simp [OFeat.name, Prim1.genName, Form.chars, Side.chars, sign]
    · obtain ⟨o', hp'⟩ : ∃ o', scalarPrim o' v = some p := by
        cases o <;> cases hp
        · exact ⟨.gt, rfl⟩
        · exact ⟨.ge, rfl⟩
        · exact ⟨.lt, rfl⟩
        · exact ⟨.le, rfl⟩
        · exact ⟨.eq, rfl⟩
        · exact ⟨.ne, rfl⟩
        · exact ⟨.add, rfl⟩
        · exact absurd (.inl rfl) ho
        · exact ⟨.mul, rfl⟩
        · exact absurd (.inr (.inl rfl)) ho
        · exact absurd (.inr (.inr rfl)) ho
      exact ⟨.infix (.leaf a) o' (.scalar v), ⟨ha, hv, trivial⟩, by simp [Form.feature, hp'], scalarPrim_chars hp' a⟩
  | @neg a ha =>
    have hb : OFeat.mk1 .neg (.leaf a) = .ok f := hb
    obtain ⟨_, rfl⟩ := mk1_ok.mp hb
    exact ⟨.unary .neg a, ⟨ha, by simp⟩, rfl, by simp [OFeat.name, Prim1.genName, Form.chars, headOf]⟩
  | @abs a ha =>
    have hb : OFeat.mk1 .abs (.leaf a) = .ok f := hb
    obtain ⟨_, rfl⟩ := mk1_ok.mp hb
    exact ⟨.unary .abs a, ⟨ha, by simp⟩, rfl, by simp [OFeat.name, Prim1.genName, Form.chars, headOf]⟩
  | @invert a ha =>
    have hb : OFeat.mk1 .not (.leaf a) = .ok f := hb
    obtain ⟨_, rfl⟩ := mk1_ok.mp hb
    exact ⟨.unary .not a, ⟨ha, by simp⟩, rfl, by simp [OFeat.name, Prim1.genName, Form.chars, headOf]⟩
  | @isNull a ha =>
    have hb : OFeat.mk1 .isNull (.leaf a) = .ok f := hb
    obtain ⟨_, rfl⟩ := mk1_ok.mp hb
    exact ⟨.unary .isNull a, ⟨ha, by simp⟩, rfl, by simp [OFeat.name, Prim1.genName, Form.chars, headOf]⟩
  | @isIn a l ha hl =>
    have hb : OFeat.mk1 (.isIn l) (.leaf a) = .ok f := hb
    obtain ⟨_, rfl⟩ := mk1_ok.mp hb
    exact ⟨.isIn a l, ⟨ha, hl⟩, rfl, by simp [OFeat.name, Prim1.genName, Form.chars, isinChars]⟩

/-- All leaves are of the entity of the feature. -/
theorem simple_entity {e : PExpr} {ent : String} {t : VFam} (hs : Simple L V e) (ht : TypeOf e ent t) :
    Simple (fun l => L l ∧ l.entity = ent) V e := by
  have leafEnt : ∀ {l : Leaf} {u}, TypeOf (.leaf l) ent u → l.entity = ent := fun h => by cases h; rfl
  cases hs with
  | leaf hl => exact .leaf ⟨hl, leafEnt ht⟩
  | op o ha hb => cases ht with | op h1 h2 _ => exact .op o ⟨ha, leafEnt h1⟩ ⟨hb, leafEnt h2⟩
  | opScalar o ha hv => cases ht with | opScalar _ h1 _ => exact .opScalar o ⟨ha, leafEnt h1⟩ hv
  | scalarOp o ha hv hn => cases ht with | scalarOp _ h1 _ => exact .scalarOp o ⟨ha, leafEnt h1⟩ hv hn
  | neg ha => cases ht with | neg h1 => exact .neg ⟨ha, leafEnt h1⟩
  | abs ha => cases ht with | abs h1 => exact .abs ⟨ha, leafEnt h1⟩
  | invert ha => cases ht with | invert h1 => exact .invert ⟨ha, leafEnt h1⟩
  | isNull ha => cases ht with | isNull h1 => exact .isNull ⟨ha, leafEnt h1⟩
  | isIn ha hl => cases ht with | isIn _ h1 => exact .isIn ⟨ha, leafEnt h1⟩ hl

theorem simple_name_inj (D : TellApart L V text listText) {e e' : PExpr} {f g : OFeat} (hs : Simple L V e) (hs' : Simple L V e')
    (hf : build e = .ok f) (hg : build e' = .ok g) (hent : f.entity = g.entity)
    (h : f.name text listText = g.name text listText) : f = g := by
  have D' : TellApart (fun l => L l ∧ l.entity = f.entity) V text listText :=
    ⟨fun l hl => D.names l hl.1, fun a b ha hb => D.leaves a b ha.1 hb.1, D.scalars, D.plain, D.lists, fun v l hv hl => D.apart v l hv hl.1⟩
  obtain ⟨F, hF, rfl, hFc⟩ := simple_form (text := text) (listText := listText) (simple_entity hs (build_typeOf e f hf)) hf
  have ht := build_typeOf e' g hg
  rw [← hent] at ht
  obtain ⟨G, hG, rfl, hGc⟩ := simple_form (text := text) (listText := listText) (simple_entity hs' ht) hg
  rw [form_inj D' (fun a b ha hb => by rw [ha.2, hb.2]) hF hG (by rw [← hFc, ← hGc, h])]

end

end FT
