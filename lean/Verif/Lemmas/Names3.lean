import Verif.Lemmas.Names2
/-!
# The tree determines the feature
-/
namespace FT
namespace Reading
open Spec

/-! ### rests -/

def IsClose : Tree → Prop
  | .close _ => True
  | .closeBy _ _ => True
  | _ => False

def NotInput : Tree → Prop
  | .input .. => False
  | _ => True

def NotWindow : Tree → Prop
  | .window .. => False
  | _ => True

theorem args_inj : ∀ {a a' : List (String × String)} {c c' : Tree}, IsClose c → IsClose c' →
    argsTail a c = argsTail a' c' → a = a' ∧ c = c'
  | [], [], _, _, _, _, h => ⟨rfl, h⟩
  | [], x :: _, c, _, hc, _, h => by simp only [argsTail, List.foldr_nil, List.foldr_cons] at h; rw [h] at hc; exact hc.elim
  | x :: _, [], _, c', _, hc, h => by simp only [argsTail, List.foldr_nil, List.foldr_cons] at h; rw [← h] at hc; exact hc.elim
  | x :: a, y :: a', c, c', hc, hc', h => by
    simp only [argsTail, List.foldr_cons, Tree.arg.injEq] at h
    obtain ⟨h1, h2, h3⟩ := h
    obtain ⟨rfl, rfl⟩ := args_inj hc hc' h3
    exact ⟨by rw [Prod.ext (String.toList_inj.mp h1) (String.toList_inj.mp h2)], rfl⟩

theorem args_head {a : List (String × String)} {c : Tree} (hc : IsClose c) :
    NotWindow (argsTail a c) ∧ (argsTail a c).NoCond ∧ NotInput (argsTail a c) := by
  cases a with
  | nil => cases c <;> first | exact ⟨trivial, trivial, trivial⟩ | exact hc.elim
  | cons => exact ⟨trivial, trivial, trivial⟩

theorem window_inj {V : Vocabulary} (hV : V.Clear) {p p' : Option Timedelta} (hp : ∀ td, p = some td → td ∈ V.windows)
    (hp' : ∀ td, p' = some td → td ∈ V.windows) {t t' : Tree} (ht : NotWindow t) (ht' : NotWindow t')
    (h : windowTail p t = windowTail p' t') : p = p' ∧ t = t' := by
  cases p with
  | none =>
    cases p' with
    | none => exact ⟨rfl, h⟩
    | some td =>
      obtain ⟨s, hs, _⟩ := hV.windowNames td (hp' td rfl)
      simp only [windowTail, hs] at h; rw [h] at ht; exact ht.elim
  | some td =>
    obtain ⟨s, hs, _⟩ := hV.windowNames td (hp td rfl)
    cases p' with
    | none => simp only [windowTail, hs] at h; rw [← h] at ht'; exact ht'.elim
    | some td' =>
      obtain ⟨s', hs', _⟩ := hV.windowNames td' (hp' td' rfl)
      simp only [windowTail, hs, hs', Tree.window.injEq] at h
      have e : s = s' := String.toList_inj.mp h.1
      subst e
      exact ⟨by rw [hV.windowsApart td (hp td rfl) td' (hp' td' rfl) (hs.trans hs'.symm)], h.2⟩

theorem window_head {p : Option Timedelta} {t : Tree} (ht : t.NoCond ∧ NotInput t) :
    (windowTail p t).NoCond ∧ NotInput (windowTail p t) := by
  unfold windowTail
  split
  · exact ht
  · split
    · exact ⟨trivial, trivial⟩
    · exact ht

/-- What a condition says. -/
def condKey (V : Vocabulary) (wh : List NFeat) : Option (Tree × Option (List Char)) :=
  wh.head?.map fun w => (tree V none w, condValue w)

theorem cond_inj {V : Vocabulary} {wh wh' : List NFeat} {t t' : Tree} (ht : t.NoCond) (ht' : t'.NoCond)
    (h : condTail wh (trees V wh) t = condTail wh' (trees V wh') t') : condKey V wh = condKey V wh' ∧ t = t' := by
  cases wh with
  | nil =>
    cases wh' with
    | nil => exact ⟨rfl, by simpa [condTail] using h⟩
    | cons w l => simp only [condTail, trees] at h; rw [h] at ht; exact ht.elim
  | cons w l =>
    cases wh' with
    | nil => simp only [condTail, trees] at h; rw [← h] at ht'; exact ht'.elim
    | cons w' l' =>
      simp only [condTail, trees, Tree.cond.injEq] at h
      exact ⟨by simp [condKey, h.1, h.2.1], h.2.2⟩

theorem cond_head {V : Vocabulary} {wh : List NFeat} {t : Tree} (ht : NotInput t) : NotInput (condTail wh (trees V wh) t) := by
  cases wh with
  | nil => simpa [condTail] using ht
  | cons w l => trivial

theorem inputs_inj : ∀ {ts ts' : List Tree} {c c' : Tree}, NotInput c → NotInput c' →
    inputs ts c = inputs ts' c' → ts = ts' ∧ c = c'
  | [], [], _, _, _, _, h => ⟨rfl, h⟩
  | [], x :: _, c, _, hc, _, h => by simp only [inputs, List.foldr_nil, List.foldr_cons] at h; rw [h] at hc; exact hc.elim
  | x :: _, [], _, c', _, hc, h => by simp only [inputs, List.foldr_nil, List.foldr_cons] at h; rw [← h] at hc; exact hc.elim
  | x :: a, y :: a', c, c', hc, hc', h => by
    simp only [inputs, List.foldr_cons, Tree.input.injEq] at h
    obtain ⟨h1, h2⟩ := inputs_inj hc hc' h.2
    exact ⟨by rw [h.1, h1], h2⟩

/-! ### applications in one form -/

structure Shape where
  p : NPrim
  first : Tree
  rest : List Tree
  wh : List NFeat
  prev : Option Timedelta
  group : Option Tree

def closing (i : Option Nat) : Option Tree → Tree
  | none => .close i
  | some t => .closeBy i t

theorem closing_close (i : Option Nat) (g : Option Tree) : IsClose (closing i g) := by cases g <;> trivial

theorem closing_inj {i j : Option Nat} {g g' : Option Tree} (h : closing i g = closing j g') : i = j ∧ g = g' := by
  cases g <;> cases g' <;> simp_all [closing]

def Shape.tree (V : Vocabulary) (i : Option Nat) (S : Shape) : Tree :=
  .app (V.upper S.p.name).toList S.first
    (inputs S.rest (condTail S.wh (trees V S.wh) (windowTail S.prev (argsTail S.p.args (closing i S.group)))))

def Shape.Fits (V : Vocabulary) (S : Shape) : Prop := S.p ∈ V.prims ∧ ∀ td, S.prev = some td → td ∈ V.windows

theorem shape_inj {V : Vocabulary} (hV : V.Clear) {S T : Shape} (hS : S.Fits V) (hT : T.Fits V) {i j : Option Nat}
    (h : S.tree V i = T.tree V j) :
    S.p = T.p ∧ S.first = T.first ∧ S.rest = T.rest ∧ condKey V S.wh = condKey V T.wh ∧ S.prev = T.prev ∧
      S.group = T.group ∧ i = j := by
  simp only [Shape.tree, Tree.app.injEq] at h
  obtain ⟨h1, h2, h3⟩ := h
  have a1 := args_head (a := S.p.args) (closing_close i S.group)
  have a2 := args_head (a := T.p.args) (closing_close j T.group)
  have w1 := window_head (p := S.prev) a1.2
  have w2 := window_head (p := T.prev) a2.2
  obtain ⟨e1, h3⟩ := inputs_inj (cond_head w1.2) (cond_head w2.2) h3
  obtain ⟨e2, h3⟩ := cond_inj w1.1 w2.1 h3
  obtain ⟨e3, h3⟩ := window_inj hV hS.2 hT.2 a1.1 a2.1 h3
  obtain ⟨e4, h3⟩ := args_inj (closing_close _ _) (closing_close _ _) h3
  obtain ⟨e5, e6⟩ := closing_inj h3
  exact ⟨hV.primsApart _ hS.1 _ hT.1 (String.toList_inj.mp h1) e4, h2, e1, e2, e3, e6, e5⟩

theorem trans_shape (V : Vocabulary) (i : Option Nat) (p : NPrim) (b : NFeat) (bs : List NFeat) :
    tree V i (.trans p (b :: bs)) = Shape.tree V i ⟨p, tree V none b, trees V bs, [], none, none⟩ := by
  simp [tree, trees, applyTree, dots, Shape.tree, condTail, windowTail, closing]

theorem groupby_shape (V : Vocabulary) (i : Option Nat) (p : NPrim) (b : NFeat) (bs : List NFeat) (g : NFeat) :
    tree V i (.groupby p (b :: bs) g) =
      Shape.tree V i ⟨p, tree V none b, trees V bs, [], none, some (tree V none g)⟩ := by
  simp [tree, trees, applyTree, dots, Shape.tree, condTail, windowTail, closing]

theorem agg_shape (V : Vocabulary) (i : Option Nat) (p : NPrim) (hc : p.count = false) (path : List Relationship) (b : NFeat)
    (bs wh : List NFeat) (prev : Option Timedelta) :
    tree V i (.agg p path (b :: bs) wh prev) =
      Shape.tree V i ⟨p, dots (pathParts V.rels path) (tree V none b), trees V bs, wh, prev, none⟩ := by
  simp [tree, trees, applyTree, Shape.tree, closing, hc]

theorem count_shape (V : Vocabulary) (i : Option Nat) (p : NPrim) (hc : p.count = true) (ha : p.args = [])
    (path : List Relationship) (bs wh : List NFeat) (prev : Option Timedelta) :
    tree V i (.agg p path bs wh prev) =
      Shape.tree V i ⟨p, words (pathParts V.rels path), [], wh, prev, none⟩ := by
  simp [tree, applyTree, Shape.tree, closing, hc, inputs, ha, argsTail]

theorem applied_app {V : Vocabulary} {f : NFeat} (h : Applied f) (i : Option Nat) : ∃ fn t u, tree V i f = .app fn t u := by
  cases f <;> simp only [Applied] at h
  · simp only [tree]
    split
    · exact ⟨_, _, _, rfl⟩
    · unfold applyTree; split <;> exact ⟨_, _, _, rfl⟩
  · simp only [tree]; unfold applyTree; split <;> exact ⟨_, _, _, rfl⟩
  · simp only [tree]; unfold applyTree; split <;> exact ⟨_, _, _, rfl⟩

/-! ### paths -/

theorem words_inj : ∀ {ps qs : List Part}, ps ≠ [] → qs ≠ [] → words ps = words qs → ps = qs
  | [], _, h, _, _ => absurd rfl h
  | _, [], _, h, _ => absurd rfl h
  | [p], [q], _, _, h => by simpa [words] using h
  | [p], q :: q' :: qs, _, _, h => by simp [words] at h
  | p :: p' :: ps, [q], _, _, h => by simp [words] at h
  | p :: p' :: ps, q :: q' :: qs, _, _, h => by
    rw [words_cons p (ps := p' :: ps) (by simp), words_cons q (ps := q' :: qs) (by simp)] at h
    simp only [Tree.dot.injEq] at h
    rw [h.1, words_inj (by simp) (by simp) h.2]

theorem dots_split : ∀ {ps qs : List Part} {t u : Tree}, dots ps t = dots qs u →
    (∃ m, qs = ps ++ m ∧ t = dots m u) ∨ (∃ m, ps = qs ++ m ∧ u = dots m t)
  | [], qs, t, u, h => .inl ⟨qs, rfl, h⟩
  | p :: ps, [], t, u, h => .inr ⟨p :: ps, rfl, h.symm⟩
  | p :: ps, q :: qs, t, u, h => by
    simp only [dots, List.foldr_cons, Tree.dot.injEq] at h
    rw [h.1]
    rcases dots_split h.2 with ⟨m, h1, h2⟩ | ⟨m, h1, h2⟩
    · exact .inl ⟨m, by simp [h1], h2⟩
    · exact .inr ⟨m, by simp [h1], h2⟩

theorem down_prefix {V : Vocabulary} (hV : V.Clear) {e c c' : String} {p q r : List Relationship} (h : Down V.rels e c p)
    (h' : Down V.rels e c' (q ++ r)) (he : p.map (childPart V.rels) = q.map (childPart V.rels)) :
    p = q ∧ Down V.rels c c' r := by
  induction p generalizing e q with
  | nil =>
    cases q with
    | nil => cases h; exact ⟨rfl, h'⟩
    | cons => simp at he
  | cons s p ih =>
    cases q with
    | nil => simp at he
    | cons s' q =>
      simp only [List.map_cons, List.cons.injEq] at he
      have hs : s = s' := childPart_inj hV h.1 h'.1 (h.2.1.trans h'.2.1.symm) he.1
      subst hs
      obtain ⟨h1, h2⟩ := ih h.2.2 h'.2.2 he.2
      exact ⟨by rw [h1], h2⟩

theorem pathParts_inj {V : Vocabulary} (hV : V.Clear) {e c c' : String} {p p' : List Relationship} (hp : p ≠ [])
    (hp' : p' ≠ []) (hc : SimpleChain V.rels c e p.reverse) (hc' : SimpleChain V.rels c' e p'.reverse)
    (h : pathParts V.rels p = pathParts V.rels p') : p = p' ∧ c = c' := by
  have hd := down_of_chain hc.1
  have hd' := down_of_chain hc'.1
  have key : ∀ {c c' p p'}, p' ≠ [] → Down V.rels e c p → Down V.rels e c' p' → p ≠ [] →
      lonePath V.rels p = true → lonePath V.rels p' = false →
      [⟨c.toList, none⟩] = p'.map (childPart V.rels) → False := by
    intro c c' p p' hp' hd hd' hp h1 h2 h
    match p', h with
    | [s], h =>
      simp only [List.map_cons, List.map_nil, List.cons.injEq, and_true] at h
      have hcs : c = s.childE := String.toList_inj.mp (congrArg Part.word h)
      have : c' = c := by rw [hcs]; exact hd'.2.2.symm
      subst this
      rw [lonePath_eq hp hd] at h1
      rw [lonePath_eq hp' hd'] at h2
      rw [h1] at h2; cases h2
    | _ :: _ :: _, h => simp at h
    | [], _ => exact hp' rfl
  rw [pathParts_eq hp hd, pathParts_eq hp' hd'] at h
  cases hl : lonePath V.rels p with
  | true =>
    cases hl' : lonePath V.rels p' with
    | true =>
      rw [hl, hl'] at h
      simp only [if_true, List.cons.injEq, and_true, Part.mk.injEq] at h
      have hcc : c = c' := String.toList_inj.mp h
      subst hcc
      rw [lonePath_eq hp hd] at hl
      have hu : hasUniqueForwardPath V.rels c e = .ok true := by
        cases hh : hasUniqueForwardPath V.rels c e with
        | error x => rw [hh] at hl; cases hl
        | ok u => rw [hh] at hl; simp only at hl; rw [hl]
      obtain ⟨q, _, hq⟩ := (C02_unique_path_true _ hV.once _ _).mp hu
      exact ⟨List.reverse_inj.mp ((hq _ hc).trans (hq _ hc').symm), rfl⟩
    | false => rw [hl, hl'] at h; exact (key hp' hd hd' hp hl hl' (by simpa using h)).elim
  | false =>
    cases hl' : lonePath V.rels p' with
    | true => rw [hl, hl'] at h; exact (key hp hd' hd hp' hl' hl (by simpa using h.symm)).elim
    | false =>
      rw [hl, hl'] at h
      simp only [Bool.false_eq_true, if_false] at h
      have hd'' : Down V.rels e c' (p' ++ []) := by simpa using hd'
      exact down_prefix hV hd hd'' h

/-- A name with a step begins with a relationship up. -/
theorem dot_of_made {V : Vocabulary} {c : String} {b : NFeat} (h : Made V c b) {q : Part} {u : Tree}
    (he : tree V none b = .dot q u) : ∃ r ∈ V.rels, r.childE = c ∧ q = parentPart V.rels r := by
  have happ : ∀ {f i}, Applied f → tree V i f = .dot q u → False := by
    intro f i hf h
    obtain ⟨fn, t, x, h'⟩ := applied_app (V := V) hf i
    rw [h'] at h; cases h
  cases h with
  | identity _ => simp [tree] at he
  | direct hr _ => simp only [tree, Tree.dot.injEq] at he; exact ⟨_, hr, rfl, he.1.symm⟩
  | count => exact (happ (by trivial) he).elim
  | agg => exact (happ (by trivial) he).elim
  | trans => exact (happ (by trivial) he).elim
  | groupby => exact (happ (by trivial) he).elim
  | slice _ ha => simp only [tree] at he; exact (happ ha he).elim

/-- A path does not go on where an input begins. -/
theorem no_overlap {V : Vocabulary} (hV : V.Clear) {e c c' : String} {p p' : List Relationship} (hp : p ≠ []) (hp' : p' ≠ [])
    (hd : Down V.rels e c p) (hd' : Down V.rels e c' p') {b : NFeat} (hb : Made V c b) {m : List Part} {u : Tree}
    (h : pathParts V.rels p' = pathParts V.rels p ++ m) (ht : tree V none b = dots m u) : m = [] := by
  cases m with
  | nil => rfl
  | cons q m =>
    exfalso
    obtain ⟨r, hr, hrc, hq⟩ := dot_of_made hb (show tree V none b = .dot q (dots m u) from ht)
    have fin : ∀ s ∈ V.rels, s.parentE = c → childPart V.rels s = q → False := by
      intro s hs hsp hsq
      refine hV.oneWay r hr s hs (hrc.trans hsp.symm) ?_
      rw [hq] at hsq
      exact (String.toList_inj.mp (congrArg Part.word hsq)).symm
    rw [pathParts_eq hp hd, pathParts_eq hp' hd'] at h
    cases hl' : lonePath V.rels p' with
    | true =>
      rw [hl'] at h
      cases hl : lonePath V.rels p with
      | true => rw [hl] at h; simp at h
      | false =>
        rw [hl] at h
        obtain ⟨x, l, rfl⟩ := List.exists_cons_of_ne_nil hp
        have := congrArg List.length h
        simp at this
    | false =>
      rw [hl'] at h
      cases hl : lonePath V.rels p with
      | true =>
        rw [hl] at h
        simp only [Bool.false_eq_true, if_false, if_true, List.cons_append, List.nil_append] at h
        match p', hd', h with
        | [s], _, h => simp at h
        | s1 :: s2 :: l, hd', h =>
          simp only [List.map_cons, List.cons.injEq] at h
          refine fin s2 hd'.2.2.1 ?_ h.2.1
          rw [hd'.2.2.2.1]
          exact String.toList_inj.mp (congrArg Part.word h.1)
      | false =>
        rw [hl] at h
        simp only [Bool.false_eq_true, if_false] at h
        obtain ⟨q1, q2, rfl, h1, h2⟩ := List.map_eq_append_iff.mp h
        cases q2 with
        | nil => simp at h2
        | cons s l =>
          simp only [List.map_cons, List.cons.injEq] at h2
          obtain ⟨_, h3⟩ := down_prefix hV hd hd' h1.symm
          exact fin s h3.1 h3.2.1 h2.1

theorem paths_inj {V : Vocabulary} (hV : V.Clear) {e c c' : String} {p p' : List Relationship} (hp : p ≠ [])
    (hp' : p' ≠ []) (hc : SimpleChain V.rels c e p.reverse) (hc' : SimpleChain V.rels c' e p'.reverse) {b b' : NFeat}
    (hb : Made V c b) (hb' : Made V c' b')
    (h : dots (pathParts V.rels p) (tree V none b) = dots (pathParts V.rels p') (tree V none b')) :
    p = p' ∧ c = c' ∧ tree V none b = tree V none b' := by
  have hd := down_of_chain hc.1
  have hd' := down_of_chain hc'.1
  rcases dots_split h with ⟨m, h1, h2⟩ | ⟨m, h1, h2⟩
  · have hm := no_overlap hV hp hp' hd hd' hb h1 h2
    subst hm
    obtain ⟨e1, e2⟩ := pathParts_inj hV hp hp' hc hc' (by simpa using h1.symm)
    exact ⟨e1, e2, h2⟩
  · have hm := no_overlap hV hp' hp hd' hd hb' h1 h2
    subst hm
    obtain ⟨e1, e2⟩ := pathParts_inj hV hp hp' hc hc' (by simpa using h1)
    exact ⟨e1, e2, h2.symm⟩

/-! ### features -/

/-- The tree determines the feature among those of its entity. -/
def Known (V : Vocabulary) (e : String) (f : NFeat) : Prop :=
  ∀ g, Made V e g → tree V none f = tree V none g → f = g

/-- The same for each output of an application. -/
def KnownAt (V : Vocabulary) (e : String) (f : NFeat) : Prop :=
  ∀ g, Made V e g → Applied g → ∀ i j, tree V i f = tree V j g → i = j ∧ f = g

theorem known_list {V : Vocabulary} {e : String} {fs gs : List NFeat} (hf : ∀ f ∈ fs, Known V e f)
    (hg : ∀ g ∈ gs, Made V e g) (h : trees V fs = trees V gs) : fs = gs := by
  induction fs generalizing gs with
  | nil => cases gs with | nil => rfl | cons => simp [trees] at h
  | cons f fs ih =>
    cases gs with
    | nil => simp [trees] at h
    | cons g gs =>
      simp only [trees, List.cons.injEq] at h
      rw [hf f (by simp) g (hg g (by simp)) h.1, ih (fun f h => hf f (by simp [h])) (fun g h => hg g (by simp [h])) h.2]

theorem known_cond {V : Vocabulary} {c : String} {wh wh' : List NFeat} (hl : wh.length ≤ 1) (hl' : wh'.length ≤ 1)
    (h1 : ∀ w ∈ wh, (∀ v b, w ≠ .equal v b) → Known V c w) (h2 : ∀ v b, .equal v b ∈ wh → Known V c b)
    (h1' : ∀ w ∈ wh', (∀ v b, w ≠ .equal v b) → Made V c w) (h2' : ∀ v b, .equal v b ∈ wh' → Made V c b)
    (h : condKey V wh = condKey V wh') : wh = wh' := by
  have hv : ∀ w : NFeat, (∀ v b, w ≠ .equal v b) → condValue w = none := by
    intro w hw; cases w <;> first | rfl | exact absurd rfl (hw _ _)
  match wh, hl, wh', hl' with
  | [], _, [], _ => rfl
  | [], _, [w], _ => simp [condKey] at h
  | [w], _, [], _ => simp [condKey] at h
  | [w], _, [w'], _ =>
    simp only [condKey, List.head?_cons, Option.map_some, Option.some.injEq, Prod.mk.injEq] at h
    by_cases he : ∃ v b, w = .equal v b
    · obtain ⟨v, b, rfl⟩ := he
      by_cases he' : ∃ v b, w' = .equal v b
      · obtain ⟨v', b', rfl⟩ := he'
        simp only [tree, condValue, Option.some.injEq] at h
        rw [String.toList_inj.mp h.2, h2 v b (by simp) b' (h2' v' b' (by simp)) h.1]
      · rw [hv w' fun v b e => he' ⟨v, b, e⟩] at h
        simp [condValue] at h
    · have hw : ∀ v b, w ≠ .equal v b := fun v b e => he ⟨v, b, e⟩
      by_cases he' : ∃ v b, w' = .equal v b
      · obtain ⟨v', b', rfl⟩ := he'
        rw [hv w hw] at h
        simp [condValue] at h
      · rw [h1 w (by simp) hw w' (h1' w' (by simp) fun v b e => he' ⟨v, b, e⟩) h.1]

/-- For an application, the second statement gives the first. -/
theorem known_of_at {V : Vocabulary} {e : String} {f : NFeat} (ha : Applied f) (h : KnownAt V e f) : Known V e f := by
  intro g hg he
  obtain ⟨fn, t, u, hf⟩ := applied_app (V := V) ha none
  cases hg with
  | identity _ => rw [hf] at he; simp [tree] at he
  | direct _ _ => rw [hf] at he; simp [tree] at he
  | count h1 h2 h3 h4 h5 h6 h7 h8 h9 => exact (h _ (.count h1 h2 h3 h4 h5 h6 h7 h8 h9) trivial _ _ he).2
  | agg h1 h2 h3 h4 h5 h6 h7 h8 h9 h10 h11 h12 =>
    exact (h _ (.agg h1 h2 h3 h4 h5 h6 h7 h8 h9 h10 h11 h12) trivial _ _ he).2
  | trans h1 h2 h3 h4 => exact (h _ (.trans h1 h2 h3 h4) trivial _ _ he).2
  | groupby h1 h2 h3 h4 h5 => exact (h _ (.groupby h1 h2 h3 h4 h5) trivial _ _ he).2
  | slice hb hba _ _ =>
    simp only [tree] at he
    have := (h _ hb hba _ _ he).1
    cases this

theorem made_kind {V : Vocabulary} {e : String} {g : NFeat} (h : Made V e g) :
    (∃ v, g = .identity v) ∨ (∃ r b, g = .direct r b ∧ r ∈ V.rels ∧ r.childE = e ∧ Made V r.parentE b) ∨ Applied g ∨
      ∃ b n, g = .slice b n ∧ Made V e b ∧ Applied b := by
  cases h with
  | identity _ => exact .inl ⟨_, rfl⟩
  | direct hr hb => exact .inr (.inl ⟨_, _, rfl, hr, rfl, hb⟩)
  | slice hb ha => exact .inr (.inr (.inr ⟨_, _, rfl, hb, ha⟩))
  | count => exact .inr (.inr (.inl trivial))
  | agg => exact .inr (.inr (.inl trivial))
  | trans => exact .inr (.inr (.inl trivial))
  | groupby => exact .inr (.inr (.inl trivial))

theorem known_of_made {V : Vocabulary} (hV : V.Clear) {e : String} {f : NFeat} (h : Made V e f) :
    Known V e f ∧ (Applied f → KnownAt V e f) := by
  induction h with
  | @identity e v hv =>
    refine ⟨?_, fun h => h.elim⟩
    intro g hg he
    rcases made_kind hg with ⟨v', rfl⟩ | ⟨r, b, rfl, _⟩ | ha | ⟨b, n, rfl, _, ha⟩
    · simp only [tree, Tree.word.injEq, Part.mk.injEq, and_true] at he; rw [String.toList_inj.mp he]
    · simp [tree] at he
    · obtain ⟨fn, t, u, h'⟩ := applied_app (V := V) ha none
      rw [h'] at he; simp [tree] at he
    · obtain ⟨fn, t, u, h'⟩ := applied_app (V := V) ha (some n)
      simp only [tree] at he; rw [h'] at he; cases he
  | @direct r b hr hb ih =>
    refine ⟨?_, fun h => h.elim⟩
    intro g hg he
    rcases made_kind hg with ⟨v', rfl⟩ | ⟨r', b', rfl, hr', hrc, hb'⟩ | ha | ⟨b, n, rfl, _, ha⟩
    · simp [tree] at he
    · simp only [tree, Tree.dot.injEq] at he
      have hrr := parentPart_inj hV hr hr' hrc.symm he.1
      subst hrr
      rw [ih.1 b' hb' he.2]
    · obtain ⟨fn, t, u, h'⟩ := applied_app (V := V) ha none
      rw [h'] at he; simp [tree] at he
    · obtain ⟨fn, t, u, h'⟩ := applied_app (V := V) ha (some n)
      simp only [tree] at he; rw [h'] at he; cases he
  | @count e child p path wh prev hp hc hne hch hw1 hw2 hw3 hw4 hprev ih1 ih2 =>
    have hcnt := hV.counting p hp hc
    have hAt : KnownAt V e (.agg p path [.identity (V.index child)] wh prev) := by
      intro g hg ha i j he
      rw [count_shape V i p hc hcnt.2.1] at he
      cases hg with
      | count gp gc gne gch gw1 gw2 gw3 gw4 gprev =>
        rw [count_shape V j _ gc (hV.counting _ gp gc).2.1] at he
        obtain ⟨e1, e2, _, e4, e5, _, e7⟩ := shape_inj hV ⟨hp, hprev⟩ ⟨gp, gprev⟩ he
        dsimp only at e1 e2 e4 e5
        have h1 := pathParts_good hV hne (down_of_chain hch.1)
        have h2 := pathParts_good hV gne (down_of_chain gch.1)
        obtain ⟨rfl, rfl⟩ := pathParts_inj hV hne gne hch gch (words_inj h1.1 h2.1 e2)
        have hw := known_cond hw4 gw4 (fun w hw hn => (ih1 w hw hn).1) (fun v b hv => (ih2 v b hv).1) gw1 gw3 e4
        subst e1; subst hw; subst e5
        exact ⟨e7, rfl⟩
      | agg gp gtr gc gne gch gb0 gb gw1 gw2 gw3 gw4 gprev =>
        obtain ⟨b, bs, rfl⟩ := List.exists_cons_of_ne_nil gb0
        rw [agg_shape V j _ gc] at he
        have e1 := (shape_inj hV ⟨hp, hprev⟩ ⟨gp, gprev⟩ he).1
        dsimp only at e1
        rw [← e1, hc] at gc; cases gc
      | trans gp gtr gb0 gb =>
        obtain ⟨b, bs, rfl⟩ := List.exists_cons_of_ne_nil gb0
        rw [trans_shape] at he
        have e1 := (shape_inj hV ⟨hp, hprev⟩ ⟨gp, fun _ h => by cases h⟩ he).1
        dsimp only at e1
        rw [← e1, hcnt.2.2] at gtr; cases gtr
      | groupby gp gtr gb0 gb gg =>
        obtain ⟨b, bs, rfl⟩ := List.exists_cons_of_ne_nil gb0
        rw [groupby_shape] at he
        have e1 := (shape_inj hV ⟨hp, hprev⟩ ⟨gp, fun _ h => by cases h⟩ he).1
        dsimp only at e1
        rw [← e1, hcnt.2.2] at gtr; cases gtr
      | identity => exact ha.elim
      | direct => exact ha.elim
      | slice => exact ha.elim
    exact ⟨known_of_at trivial hAt, fun _ => hAt⟩
  | @agg e child p path bases wh prev hp htr hc hne hch hb0 hb hw1 hw2 hw3 hw4 hprev ih ih1 ih2 =>
    obtain ⟨b, bs, rfl⟩ := List.exists_cons_of_ne_nil hb0
    have hAt : KnownAt V e (.agg p path (b :: bs) wh prev) := by
      intro g hg ha i j he
      rw [agg_shape V i p hc] at he
      cases hg with
      | count gp gc gne gch gw1 gw2 gw3 gw4 gprev =>
        rw [count_shape V j _ gc (hV.counting _ gp gc).2.1] at he
        have e1 := (shape_inj hV ⟨hp, hprev⟩ ⟨gp, gprev⟩ he).1
        dsimp only at e1
        rw [← e1, hc] at gc; cases gc
      | agg gp gtr gc gne gch gb0 gb gw1 gw2 gw3 gw4 gprev =>
        obtain ⟨b', bs', rfl⟩ := List.exists_cons_of_ne_nil gb0
        rw [agg_shape V j _ gc] at he
        obtain ⟨e1, e2, e3, e4, e5, _, e7⟩ := shape_inj hV ⟨hp, hprev⟩ ⟨gp, gprev⟩ he
        dsimp only at e1 e2 e3 e4 e5
        obtain ⟨rfl, rfl, e2⟩ := paths_inj hV hne gne hch gch (hb b (by simp)) (gb b' (by simp)) e2
        have hbb := (ih b (by simp)).1 b' (gb b' (by simp)) e2
        have hbs := known_list (fun f hf => (ih f (by simp [hf])).1) (fun g hg => gb g (by simp [hg])) e3
        have hw := known_cond hw4 gw4 (fun w hw hn => (ih1 w hw hn).1) (fun v b hv => (ih2 v b hv).1) gw1 gw3 e4
        subst e1; subst hw; subst e5; subst hbb; subst hbs
        exact ⟨e7, rfl⟩
      | trans gp gtr gb0 gb =>
        obtain ⟨b, bs, rfl⟩ := List.exists_cons_of_ne_nil gb0
        rw [trans_shape] at he
        have e1 := (shape_inj hV ⟨hp, hprev⟩ ⟨gp, fun _ h => by cases h⟩ he).1
        dsimp only at e1
        rw [← e1, htr] at gtr; cases gtr
      | groupby gp gtr gb0 gb gg =>
        obtain ⟨b, bs, rfl⟩ := List.exists_cons_of_ne_nil gb0
        rw [groupby_shape] at he
        have e1 := (shape_inj hV ⟨hp, hprev⟩ ⟨gp, fun _ h => by cases h⟩ he).1
        dsimp only at e1
        rw [← e1, htr] at gtr; cases gtr
      | identity => exact ha.elim
      | direct => exact ha.elim
      | slice => exact ha.elim
    exact ⟨known_of_at trivial hAt, fun _ => hAt⟩
  | @trans e p bases hp htr hb0 hb ih =>
    obtain ⟨b, bs, rfl⟩ := List.exists_cons_of_ne_nil hb0
    have hAt : KnownAt V e (.trans p (b :: bs)) := by
      intro g hg ha i j he
      rw [trans_shape] at he
      cases hg with
      | count gp gc gne gch gw1 gw2 gw3 gw4 gprev =>
        rw [count_shape V j _ gc (hV.counting _ gp gc).2.1] at he
        have e1 := (shape_inj hV ⟨hp, fun _ h => by cases h⟩ ⟨gp, gprev⟩ he).1
        dsimp only at e1
        rw [e1, (hV.counting _ gp gc).2.2] at htr; cases htr
      | agg gp gtr gc gne gch gb0 gb gw1 gw2 gw3 gw4 gprev =>
        obtain ⟨b', bs', rfl⟩ := List.exists_cons_of_ne_nil gb0
        rw [agg_shape V j _ gc] at he
        have e1 := (shape_inj hV ⟨hp, fun _ h => by cases h⟩ ⟨gp, gprev⟩ he).1
        dsimp only at e1
        rw [e1, gtr] at htr; cases htr
      | trans gp gtr gb0 gb =>
        obtain ⟨b', bs', rfl⟩ := List.exists_cons_of_ne_nil gb0
        rw [trans_shape] at he
        obtain ⟨e1, e2, e3, _, _, _, e7⟩ := shape_inj hV ⟨hp, fun _ h => by cases h⟩ ⟨gp, fun _ h => by cases h⟩ he
        dsimp only at e1 e2 e3
        have hbb := (ih b (by simp)).1 b' (gb b' (by simp)) e2
        have hbs := known_list (fun f hf => (ih f (by simp [hf])).1) (fun g hg => gb g (by simp [hg])) e3
        subst e1; subst hbb; subst hbs
        exact ⟨e7, rfl⟩
      | groupby gp gtr gb0 gb gg =>
        obtain ⟨b', bs', rfl⟩ := List.exists_cons_of_ne_nil gb0
        rw [groupby_shape] at he
        have e6 := (shape_inj hV ⟨hp, fun _ h => by cases h⟩ ⟨gp, fun _ h => by cases h⟩ he).2.2.2.2.2.1
        cases e6
      | identity => exact ha.elim
      | direct => exact ha.elim
      | slice => exact ha.elim
    exact ⟨known_of_at trivial hAt, fun _ => hAt⟩
  | @groupby e p bases g hp htr hb0 hb hg ih ihg =>
    obtain ⟨b, bs, rfl⟩ := List.exists_cons_of_ne_nil hb0
    have hAt : KnownAt V e (.groupby p (b :: bs) g) := by
      intro g' hg' ha i j he
      rw [groupby_shape] at he
      cases hg' with
      | count gp gc gne gch gw1 gw2 gw3 gw4 gprev =>
        rw [count_shape V j _ gc (hV.counting _ gp gc).2.1] at he
        have e1 := (shape_inj hV ⟨hp, fun _ h => by cases h⟩ ⟨gp, gprev⟩ he).1
        dsimp only at e1
        rw [e1, (hV.counting _ gp gc).2.2] at htr; cases htr
      | agg gp gtr gc gne gch gb0 gb gw1 gw2 gw3 gw4 gprev =>
        obtain ⟨b', bs', rfl⟩ := List.exists_cons_of_ne_nil gb0
        rw [agg_shape V j _ gc] at he
        have e1 := (shape_inj hV ⟨hp, fun _ h => by cases h⟩ ⟨gp, gprev⟩ he).1
        dsimp only at e1
        rw [e1, gtr] at htr; cases htr
      | trans gp gtr gb0 gb =>
        obtain ⟨b', bs', rfl⟩ := List.exists_cons_of_ne_nil gb0
        rw [trans_shape] at he
        have e6 := (shape_inj hV ⟨hp, fun _ h => by cases h⟩ ⟨gp, fun _ h => by cases h⟩ he).2.2.2.2.2.1
        cases e6
      | groupby gp gtr gb0 gb gg =>
        obtain ⟨b', bs', rfl⟩ := List.exists_cons_of_ne_nil gb0
        rw [groupby_shape] at he
        obtain ⟨e1, e2, e3, _, _, e6, e7⟩ := shape_inj hV ⟨hp, fun _ h => by cases h⟩ ⟨gp, fun _ h => by cases h⟩ he
        dsimp only at e1 e2 e3 e6
        have hbb := (ih b (by simp)).1 b' (gb b' (by simp)) e2
        have hbs := known_list (fun f hf => (ih f (by simp [hf])).1) (fun g hg => gb g (by simp [hg])) e3
        have hgg := ihg.1 _ gg (Option.some.inj e6)
        subst e1; subst hbb; subst hbs; subst hgg
        exact ⟨e7, rfl⟩
      | identity => exact ha.elim
      | direct => exact ha.elim
      | slice => exact ha.elim
    exact ⟨known_of_at trivial hAt, fun _ => hAt⟩
  | @slice e b n hb ha h1 h2 ih =>
    refine ⟨?_, fun h => h.elim⟩
    intro g hg he
    simp only [tree] at he
    obtain ⟨fn, t, u, h'⟩ := applied_app (V := V) ha (some n)
    rcases made_kind hg with ⟨v', rfl⟩ | ⟨r', b', rfl, hr', hrc, hb'⟩ | hga | ⟨b', n', rfl, hb', ha'⟩
    · rw [h'] at he; simp [tree] at he
    · rw [h'] at he; simp [tree] at he
    · have := (ih.2 ha g hg hga _ _ he).1
      cases this
    · simp only [tree] at he
      obtain ⟨h3, h4⟩ := ih.2 ha b' hb' ha' _ _ he
      cases h3; rw [h4]

/-- Features of one entity with one name are one feature. -/
theorem name_inj {V : Vocabulary} (hV : V.Clear) {e : String} {f g : NFeat} (hf : Made V e f) (hg : Made V e g)
    {x y : NNames} (hx : f.namesOf V.upper V.rels = .ok x) (hy : g.namesOf V.upper V.rels = .ok y) (h : x.name = y.name) :
    f = g := by
  obtain ⟨N, hN, x', hx', hxn, _⟩ := named_of_made hV hf
  obtain ⟨M, hM, y', hy', hyn, _⟩ := named_of_made hV hg
  rw [hx] at hx'; cases hx'
  rw [hy] at hy'; cases hy'
  have : N none = M none := hxn.symm.trans (h.trans hyn)
  have ht : (tree V none f).text ++ [] = (tree V none g).text ++ [] := by
    rw [← (hN none).1, ← (hM none).1, this]
  exact (known_of_made hV hf).1 g hg (text_unique _ true _ [] [] (hN none).2 (hM none).2 (.inl rfl) (.inl rfl) ht).1

end Reading
end FT
