import Verif.Lemmas.Names
import Verif.Props.Schema
/-!
# The tree of a feature

Every feature of the vocabulary has a tree; its names are the texts of the tree.
-/
namespace FT
namespace Reading
open Spec

/-! ### parts of paths -/

def parentPart (rels : List Relationship) (r : Relationship) : Part :=
  ⟨r.parentE.toList, if r.isUnique? rels = some true then none else some r.childV.toList⟩

def childPart (rels : List Relationship) (r : Relationship) : Part :=
  ⟨r.childE.toList, if r.isUnique? rels = some true then none else some r.childV.toList⟩

def lonePath (rels path : List Relationship) : Bool :=
  match path.head?, path.getLast? with
  | some f, some l => match hasUniqueForwardPath rels l.childE f.parentE with
    | .ok u => u
    | .error _ => false
  | _, _ => false

def pathParts (rels path : List Relationship) : List Part :=
  match path.getLast? with
  | none => []
  | some l => if lonePath rels path then [⟨l.childE.toList, none⟩] else path.map (childPart rels)

def dots (ps : List Part) (t : Tree) : Tree := ps.foldr Tree.dot t

def words : List Part → Tree
  | [] => .word ⟨[], none⟩
  | [p] => .word p
  | p :: ps => .dot p (words ps)

def inputs (ts : List Tree) (tail : Tree) : Tree := ts.foldr Tree.input tail

def argsTail (args : List (String × String)) (tail : Tree) : Tree :=
  args.foldr (fun a t => .arg a.1.toList a.2.toList t) tail

def windowTail (prev : Option Timedelta) (tail : Tree) : Tree :=
  match prev with
  | none => tail
  | some td => match td.getName with
    | .ok s => .window s.toList tail
    | .error _ => tail

def condValue : NFeat → Option (List Char)
  | .equal v _ => some v.toList
  | _ => none

def condTail : List NFeat → List Tree → Tree → Tree
  | w :: _, t :: _, tail => .cond t (condValue w) tail
  | _, _, tail => tail

def applyTree (fn : List Char) (parts : List Part) (ts : List Tree) (tail : Tree) : Tree :=
  match ts with
  | [] => .app fn (words parts) tail
  | t :: ts => .app fn (dots parts t) (inputs ts tail)

mutual
/-- The tree of a feature; of one of its outputs, if a number is given. The tree of a comparison is that of its input. -/
def tree (V : Vocabulary) : Option Nat → NFeat → Tree
  | _, .identity v => .word ⟨v.toList, none⟩
  | _, .direct r b => .dot (parentPart V.rels r) (tree V none b)
  | i, .agg p path bases wh prev =>
    if p.count then
      applyTree (V.upper p.name).toList (pathParts V.rels path) [] (condTail wh (trees V wh) (windowTail prev (.close i)))
    else applyTree (V.upper p.name).toList (pathParts V.rels path) (trees V bases)
      (condTail wh (trees V wh) (windowTail prev (argsTail p.args (.close i))))
  | i, .trans p bases => applyTree (V.upper p.name).toList [] (trees V bases) (argsTail p.args (.close i))
  | _, .equal _ b => tree V none b
  | i, .groupby p bases g =>
    applyTree (V.upper p.name).toList [] (trees V bases) (argsTail p.args (.closeBy i (tree V none g)))
  | _, .slice b n => tree V (some n) b
  | _, .renamed _ b => tree V none b

def trees (V : Vocabulary) : List NFeat → List Tree
  | [] => []
  | f :: fs => tree V none f :: trees V fs
end

theorem trees_eq (V : Vocabulary) (fs : List NFeat) : trees V fs = fs.map (tree V none) := by
  induction fs with
  | nil => rfl
  | cons f fs ih => simp [trees, ih]

/-! ### relationships -/

theorem isUnique_some {rels : List Relationship} {r : Relationship} (hr : r ∈ rels) : ∃ u, r.isUnique? rels = some u := by
  unfold Relationship.isUnique?
  have : r ∈ (getForwardRelationships rels r.childE).filter fun s => s.parentE == r.parentE := by
    simp [getForwardRelationships, hr]
  have := List.length_pos_of_mem this
  exact ⟨_, if_pos this⟩

/-- A relationship is unique iff no other one joins the same entities. -/
theorem isUnique_true {rels : List Relationship} {r : Relationship} (hn : rels.Nodup) (hr : r ∈ rels) :
    r.isUnique? rels = some true ↔ ∀ s ∈ rels, s.childE = r.childE → s.parentE = r.parentE → s = r := by
  unfold Relationship.isUnique?
  have hm : ∀ s, s ∈ (getForwardRelationships rels r.childE).filter (fun s => s.parentE == r.parentE) ↔
      s ∈ rels ∧ s.childE = r.childE ∧ s.parentE = r.parentE := by
    intro s; simp [getForwardRelationships]; exact fun _ => and_comm
  have hnd : ((getForwardRelationships rels r.childE).filter fun s => s.parentE == r.parentE).Nodup :=
    (hn.sublist List.filter_sublist).sublist List.filter_sublist
  generalize hl : (getForwardRelationships rels r.childE).filter (fun s => s.parentE == r.parentE) = l at hm hnd
  have hrl : r ∈ l := (hm r).mpr ⟨hr, rfl, rfl⟩
  match l, hnd with
  | [], _ => simp at hrl
  | [x], _ =>
    have hx : r = x := by simpa using hrl
    subst hx
    simp only [List.length_singleton, gt_iff_lt, Nat.zero_lt_one, if_true, beq_self_eq_true, true_iff]
    intro s hs h1 h2
    simpa using (hm s).mpr ⟨hs, h1, h2⟩
  | x :: y :: l, hnd =>
    simp only [List.length_cons, gt_iff_lt, Nat.zero_lt_succ, if_true, Option.some.injEq, beq_iff_eq]
    constructor
    · intro h; omega
    · intro h
      have hx := (hm x).mp (by simp)
      have hy := (hm y).mp (by simp)
      have e1 := h x hx.1 hx.2.1 hx.2.2
      have e2 := h y hy.1 hy.2.1 hy.2.2
      rw [e1, e2] at hnd
      simp at hnd

theorem relationship_ext {r s : Relationship} (h1 : r.childE = s.childE) (h2 : r.parentE = s.parentE)
    (h3 : r.childV = s.childV) (h4 : r.parentV = s.parentV) : r = s := by
  cases r; cases s; simp_all

theorem rel_determined {V : Vocabulary} (hV : V.Clear) {r s : Relationship} (hr : r ∈ V.rels) (hs : s ∈ V.rels)
    (hc : r.childE = s.childE) (hp : r.parentE = s.parentE)
    (h : (if r.isUnique? V.rels = some true then none else some r.childV.toList) =
      (if s.isUnique? V.rels = some true then none else some s.childV.toList)) : r = s := by
  by_cases hu : r.isUnique? V.rels = some true
  · exact ((isUnique_true hV.once hr).mp hu s hs hc.symm hp.symm).symm
  · rw [if_neg hu] at h
    by_cases hu' : s.isUnique? V.rels = some true
    · rw [if_pos hu'] at h; cases h
    · rw [if_neg hu'] at h
      exact relationship_ext hc hp (String.toList_inj.mp (Option.some.inj h))
        (by rw [hV.arrives r hr, hV.arrives s hs, hp])

theorem parentPart_inj {V : Vocabulary} (hV : V.Clear) {r s : Relationship} (hr : r ∈ V.rels) (hs : s ∈ V.rels)
    (hc : r.childE = s.childE) (h : parentPart V.rels r = parentPart V.rels s) : r = s := by
  injection h with h1 h2
  exact rel_determined hV hr hs hc (String.toList_inj.mp h1) h2

theorem childPart_inj {V : Vocabulary} (hV : V.Clear) {r s : Relationship} (hr : r ∈ V.rels) (hs : s ∈ V.rels)
    (hp : r.parentE = s.parentE) (h : childPart V.rels r = childPart V.rels s) : r = s := by
  injection h with h1 h2
  exact rel_determined hV hr hs (String.toList_inj.mp h1) hp h2

theorem isWord_toList {s : String} (h : Word s) : IsWord s.toList :=
  ⟨fun e => h.1 (String.toList_inj.mp (by rw [e]; rfl)), h.2⟩

theorem isPhrase_toList {s : String} (h : Phrase s) : IsPhrase s.toList := h

theorem parentPart_good {V : Vocabulary} (hV : V.Clear) {r : Relationship} (hr : r ∈ V.rels) :
    (parentPart V.rels r).Good := by
  have h := hV.entities r hr
  refine ⟨isWord_toList h.2.1, ?_⟩
  intro v hv
  simp only [parentPart] at hv
  split at hv
  · cases hv
  · cases hv; exact isWord_toList h.2.2

theorem childPart_good {V : Vocabulary} (hV : V.Clear) {r : Relationship} (hr : r ∈ V.rels) :
    (childPart V.rels r).Good := by
  have h := hV.entities r hr
  refine ⟨isWord_toList h.1, ?_⟩
  intro v hv
  simp only [childPart] at hv
  split at hv
  · cases hv
  · cases hv; exact isWord_toList h.2.2

theorem forwardName_ok {V : Vocabulary} {r : Relationship} (hr : r ∈ V.rels) :
    ∃ n, forwardName V.rels r = .ok n ∧ n.toList = (parentPart V.rels r).text := by
  obtain ⟨u, hu⟩ := isUnique_some hr
  unfold forwardName Relationship.parentName?
  rw [hu]
  cases u
  · exact ⟨_, rfl, by simp [parentPart, Part.text, hu]⟩
  · exact ⟨_, rfl, by simp [parentPart, Part.text, hu]⟩

theorem childName_ok {V : Vocabulary} {r : Relationship} (hr : r ∈ V.rels) :
    ∃ n, r.childName? V.rels = some n ∧ n.toList = (childPart V.rels r).text := by
  obtain ⟨u, hu⟩ := isUnique_some hr
  unfold Relationship.childName?
  rw [hu]
  cases u
  · exact ⟨_, rfl, by simp [childPart, Part.text, hu]⟩
  · exact ⟨_, rfl, by simp [childPart, Part.text, hu]⟩

/-! ### chains -/

theorem chain_append {rels : List Relationship} {a b : String} {p q : List Relationship} :
    Chain rels a b (p ++ q) ↔ ∃ m, Chain rels a m p ∧ Chain rels m b q := by
  induction p generalizing a with
  | nil => simp [Chain]
  | cons r p ih =>
    simp only [List.cons_append, Chain, ih]
    constructor
    · rintro ⟨h1, h2, m, h3, h4⟩; exact ⟨m, ⟨h1, h2, h3⟩, h4⟩
    · rintro ⟨m, ⟨h1, h2, h3⟩, h4⟩; exact ⟨h1, h2, m, h3, h4⟩

/-- A path seen from its top: it leads down from `e` to `child`. -/
def Down (rels : List Relationship) : String → String → List Relationship → Prop
  | e, c, [] => e = c
  | e, c, r :: p => r ∈ rels ∧ r.parentE = e ∧ Down rels r.childE c p

theorem down_of_chain {rels : List Relationship} {e c : String} {p : List Relationship} (h : Chain rels c e p.reverse) :
    Down rels e c p := by
  induction p generalizing e with
  | nil => exact h.symm
  | cons r p ih =>
    rw [List.reverse_cons, chain_append] at h
    obtain ⟨m, h1, h2, h3, h4⟩ := h
    simp only [Chain] at h4
    refine ⟨h2, h4, ?_⟩
    rw [h3]; exact ih h1

theorem Down.mem {rels : List Relationship} {e c : String} {p : List Relationship} (h : Down rels e c p) :
    ∀ r ∈ p, r ∈ rels := by
  induction p generalizing e with
  | nil => simp
  | cons r p ih =>
    intro x hx
    rcases List.mem_cons.mp hx with rfl | hx
    · exact h.1
    · exact ih h.2.2 x hx

theorem Down.last {rels : List Relationship} {e c : String} {p : List Relationship} (h : Down rels e c p) {l : Relationship}
    (hl : p.getLast? = some l) : l.childE = c := by
  induction p generalizing e with
  | nil => cases hl
  | cons r p ih =>
    cases p with
    | nil => simp at hl; subst hl; exact h.2.2
    | cons r' p => rw [List.getLast?_cons_cons] at hl; exact ih h.2.2 hl

theorem Down.first {rels : List Relationship} {e c : String} {p : List Relationship} (h : Down rels e c p) {l : Relationship}
    (hl : p.head? = some l) : l.parentE = e := by
  cases p with
  | nil => cases hl
  | cons r p => simp at hl; subst hl; exact h.2.1

theorem path_ends {rels : List Relationship} {e c : String} {p : List Relationship} (hp : p ≠ []) (h : Down rels e c p) :
    ∃ f l, p.head? = some f ∧ p.getLast? = some l ∧ f.parentE = e ∧ l.childE = c ∧ l ∈ rels := by
  obtain ⟨f, q, rfl⟩ := List.exists_cons_of_ne_nil hp
  have hl : (f :: q).getLast? = some ((f :: q).getLast hp) := List.getLast?_eq_some_getLast hp
  exact ⟨f, _, rfl, hl, h.first rfl, h.last hl, h.mem _ (List.getLast_mem hp)⟩

theorem lonePath_eq {rels : List Relationship} {e c : String} {p : List Relationship} (hp : p ≠ []) (h : Down rels e c p) :
    lonePath rels p = match hasUniqueForwardPath rels c e with | .ok u => u | .error _ => false := by
  obtain ⟨f, l, h1, h2, h3, h4, _⟩ := path_ends hp h
  simp [lonePath, h1, h2, h3, h4]

theorem pathParts_eq {rels : List Relationship} {e c : String} {p : List Relationship} (hp : p ≠ []) (h : Down rels e c p) :
    pathParts rels p = if lonePath rels p then [⟨c.toList, none⟩] else p.map (childPart rels) := by
  obtain ⟨f, l, h1, h2, h3, h4, _⟩ := path_ends hp h
  simp [pathParts, h2, h4]

theorem backwardNames_ok {V : Vocabulary} {p : List Relationship} (h : ∀ r ∈ p, r ∈ V.rels) :
    ∃ ns, backwardNames V.rels p = .ok ns ∧ ns.map String.toList = p.map fun r => (childPart V.rels r).text := by
  induction p with
  | nil => exact ⟨[], rfl, rfl⟩
  | cons r p ih =>
    obtain ⟨n, hn, hn'⟩ := childName_ok (h r (by simp))
    obtain ⟨ns, hns, hns'⟩ := ih fun r hr => h r (by simp [hr])
    exact ⟨n :: ns, by simp [backwardNames, hn, hns, Except.map], by simp [hn', hns']⟩

theorem words_cons (p : Part) {ps : List Part} (h : ps ≠ []) : words (p :: ps) = .dot p (words ps) := by
  cases ps with
  | nil => exact absurd rfl h
  | cons => rfl

theorem words_text : ∀ (ns : List String) (ps : List Part), ns ≠ [] → ns.map String.toList = ps.map Part.text →
    (String.intercalate "." ns).toList = (words ps).text
  | [], _, h, _ => absurd rfl h
  | [n], ps, _, h => by
    match ps with
    | [] => simp at h
    | [p] => simpa [words, Tree.text] using h
    | p :: q :: r => simp at h
  | n :: m :: ns, ps, _, h => by
    match ps with
    | [] => simp at h
    | [p] => simp at h
    | p :: q :: r =>
      simp only [List.map_cons, List.cons.injEq] at h
      have := words_text (m :: ns) (q :: r) (by simp) (by simp [h.2.1, h.2.2])
      rw [String.intercalate_cons_cons, words_cons _ (by simp)]
      simp [Tree.text, h.1, this]

theorem words_good {ps : List Part} (h0 : ps ≠ []) (h : ∀ p ∈ ps, p.Good) : (words ps).Good true := by
  induction ps with
  | nil => exact absurd rfl h0
  | cons p ps ih =>
    cases ps with
    | nil => exact h p (by simp)
    | cons q r =>
      rw [words_cons _ (by simp)]
      exact ⟨h p (by simp), ih (by simp) fun x hx => h x (by simp [hx])⟩

theorem dots_good {ps : List Part} {t : Tree} (ht : t.Good true) (h : ∀ p ∈ ps, p.Good) : (dots ps t).Good true := by
  induction ps with
  | nil => exact ht
  | cons p ps ih => exact ⟨h p (by simp), ih fun x hx => h x (by simp [hx])⟩

theorem dots_text {ps : List Part} (h : ps ≠ []) (t : Tree) : (dots ps t).text = (words ps).text ++ '.' :: t.text := by
  induction ps with
  | nil => exact absurd rfl h
  | cons p ps ih =>
    cases ps with
    | nil => simp [dots, words, Tree.text]
    | cons q r =>
      rw [words_cons _ (by simp)]
      have := ih (by simp)
      simp only [dots, List.foldr_cons, Tree.text] at this ⊢
      simp [this]

theorem pathParts_good {V : Vocabulary} (hV : V.Clear) {e c : String} {p : List Relationship} (hp : p ≠ [])
    (h : Down V.rels e c p) : pathParts V.rels p ≠ [] ∧ ∀ q ∈ pathParts V.rels p, q.Good := by
  obtain ⟨f, l, h1, h2, h3, h4, h5⟩ := path_ends hp h
  rw [pathParts_eq hp h]
  split
  · refine ⟨by simp, ?_⟩
    intro q hq
    simp only [List.mem_singleton] at hq
    subst hq
    exact ⟨isWord_toList (h4 ▸ (hV.entities l h5).1), fun v hv => by cases hv⟩
  · refine ⟨by simpa using hp, ?_⟩
    intro q hq
    obtain ⟨r, hr, rfl⟩ := List.mem_map.mp hq
    exact childPart_good hV (h.mem r hr)

theorem aggPathName_ok {V : Vocabulary} (hV : V.Clear) {e c : String} {p : List Relationship} (hp : p ≠ [])
    (hc : SimpleChain V.rels c e p.reverse) :
    ∃ n, aggPathName V.rels p = .ok n ∧ n.toList = (words (pathParts V.rels p)).text := by
  have h := down_of_chain hc.1
  obtain ⟨f, l, h1, h2, h3, h4, h5⟩ := path_ends hp h
  rw [pathParts_eq hp h, lonePath_eq hp h]
  simp only [aggPathName, h1, h2, h3, h4]
  cases hu : hasUniqueForwardPath V.rels c e with
  | error x => cases x; exact absurd ⟨_, hc⟩ ((C02_unique_path_raises _ _ _).mp hu)
  | ok u =>
    cases u with
    | true => exact ⟨c, rfl, by simp [words, Tree.text, Part.text]⟩
    | false =>
      obtain ⟨ns, hns, hns'⟩ := backwardNames_ok h.mem
      refine ⟨_, by simp [hns, Except.map]; rfl, ?_⟩
      simp only [Bool.false_eq_true, if_false]
      have hne : ns ≠ [] := by
        rintro rfl
        obtain ⟨f', q, rfl⟩ := List.exists_cons_of_ne_nil hp
        simp at hns'
      exact words_text ns _ hne (by simp [hns', Function.comp_def])

/-! ### texts -/

theorem inputs_text (ts : List Tree) (tail : Tree) :
    (inputs ts tail).text = (ts.flatMap fun t => ',' :: ' ' :: t.text) ++ tail.text := by
  induction ts with
  | nil => rfl
  | cons t ts ih =>
    simp only [inputs, List.foldr_cons, Tree.text, List.flatMap_cons] at ih ⊢
    simp [ih]

theorem inputs_good {ts : List Tree} {tail : Tree} (h : ∀ t ∈ ts, t.Good true) (ht : tail.Good false) :
    (inputs ts tail).Good false := by
  induction ts with
  | nil => exact ht
  | cons t ts ih => exact ⟨h t (by simp), ih fun x hx => h x (by simp [hx])⟩

theorem args_text (args : List (String × String)) (tail : Tree) :
    (argsTail args tail).text = (argsString args).toList ++ tail.text := by
  have key : ∀ args : List (String × String), args ≠ [] → (argsTail args tail).text =
      [',', ' '] ++ (String.intercalate ", " (args.map fun a => a.1 ++ "=" ++ a.2)).toList ++ tail.text := by
    intro args h
    induction args with
    | nil => exact absurd rfl h
    | cons a args ih =>
      cases args with
      | nil => simp [argsTail, Tree.text]
      | cons b l =>
        have := ih (by simp)
        simp only [argsTail, List.foldr_cons, Tree.text, List.map_cons, String.intercalate_cons_cons,
          String.toList_append] at this ⊢
        rw [this]
        simp
  cases args with
  | nil => simp [argsTail, argsString]
  | cons a l =>
    rw [key _ (by simp)]
    simp [argsString]

theorem args_good {args : List (String × String)} {tail : Tree} (h : ∀ a ∈ args, Word a.1 ∧ Phrase a.2)
    (ht : tail.Good false) (hn : tail.NoCond) : (argsTail args tail).Good false ∧ (argsTail args tail).NoCond := by
  induction args with
  | nil => exact ⟨ht, hn⟩
  | cons a l ih =>
    obtain ⟨h1, h2⟩ := ih fun x hx => h x (by simp [hx])
    exact ⟨⟨isWord_toList (h a (by simp)).1, (h a (by simp)).2, h1, h2⟩, trivial⟩

theorem window_text {V : Vocabulary} (hV : V.Clear) {prev : Option Timedelta} (h : ∀ td, prev = some td → td ∈ V.windows)
    (tail : Tree) : ∃ s, usePrevStr prev = .ok s ∧ (windowTail prev tail).text = s.toList ++ tail.text := by
  cases prev with
  | none => exact ⟨"", rfl, by simp [windowTail]⟩
  | some td =>
    obtain ⟨s, hs, _, _⟩ := hV.windowNames td (h td rfl)
    exact ⟨", Last " ++ s, by simp [usePrevStr, hs, Except.map], by simp [windowTail, hs, Tree.text]⟩

theorem window_good {V : Vocabulary} (hV : V.Clear) {prev : Option Timedelta} (h : ∀ td, prev = some td → td ∈ V.windows)
    {tail : Tree} (ht : tail.Good false) (hn : tail.NoCond) :
    (windowTail prev tail).Good false ∧ (windowTail prev tail).NoCond := by
  cases prev with
  | none => exact ⟨ht, hn⟩
  | some td =>
    obtain ⟨s, hs, h1, h2⟩ := hV.windowNames td (h td rfl)
    simp only [windowTail, hs]
    exact ⟨⟨isPhrase_toList h1, h2, ht, hn⟩, trivial⟩

theorem apply_text {fn : List Char} {parts : List Part} {t : Tree} {ts : List Tree} {tail : Tree} :
    (applyTree fn parts (t :: ts) tail).text = fn ++ '(' :: ((dots parts t).text ++
      ((ts.flatMap fun t => ',' :: ' ' :: t.text) ++ tail.text)) := by
  simp [applyTree, Tree.text, inputs_text]

theorem join_text (n : String) (ns : List String) (t : Tree) (ts : List Tree)
    (h : (n :: ns).map String.toList = (t :: ts).map Tree.text) :
    (String.intercalate ", " (n :: ns)).toList = t.text ++ ts.flatMap fun t => ',' :: ' ' :: t.text := by
  induction ns generalizing n t ts with
  | nil =>
    cases ts with
    | nil => simpa using h
    | cons => simp at h
  | cons m ns ih =>
    cases ts with
    | nil => simp at h
    | cons u ts =>
      simp only [List.map_cons, List.cons.injEq] at h
      rw [String.intercalate_cons_cons]
      have := ih m u ts (by simp [h.2.1, h.2.2])
      simp [h.1, this]

/-! ### names of features -/

/-- The feature has the names its tree says, of each output. -/
def Named (V : Vocabulary) (f : NFeat) : Prop :=
  ∃ N : Option Nat → String, (∀ i, (N i).toList = (tree V i f).text ∧ (tree V i f).Good true) ∧
    ∃ x, f.namesOf V.upper V.rels = .ok x ∧ x.name = N none ∧
      (Applied f → x = plainNames f.outputs (N none) ((List.range f.outputs).map fun i => N (some i)))

theorem baseNames_ok {V : Vocabulary} {fs : List NFeat} (h : ∀ f ∈ fs, Named V f) :
    ∃ ns, NFeat.baseNames V.upper V.rels fs = .ok ns ∧ ns.map String.toList = (trees V fs).map Tree.text ∧
      ∀ t ∈ trees V fs, t.Good true := by
  induction fs with
  | nil => exact ⟨[], rfl, rfl, by simp [trees]⟩
  | cons f fs ih =>
    obtain ⟨N, hN, x, hx, hxn, _⟩ := h f (by simp)
    obtain ⟨ns, hns, hns', hg⟩ := ih fun f hf => h f (by simp [hf])
    refine ⟨x.name :: ns, by simp [NFeat.baseNames, hx, hns, Except.bind, Except.map], ?_, ?_⟩
    · simp [trees, hxn, (hN none).1, hns']
    · intro t ht
      simp only [trees, List.mem_cons] at ht
      rcases ht with rfl | ht
      · exact (hN none).2
      · exact hg t ht

/-- The condition of an aggregation. -/
theorem cond_ok {V : Vocabulary} {wh : List NFeat} (h1 : ∀ w ∈ wh, (∀ v b, w ≠ .equal v b) → Named V w)
    (h2 : ∀ v b, .equal v b ∈ wh → Phrase v) (h3 : ∀ v b, .equal v b ∈ wh → Named V b) (h4 : wh.length ≤ 1) :
    ∃ ws, NFeat.baseNames V.upper V.rels wh = .ok ws ∧ ∀ tail : Tree,
      (condTail wh (trees V wh) tail).text = (whereStr ws).toList ++ tail.text ∧
      (tail.Good false → tail.NoCond → (condTail wh (trees V wh) tail).Good false) := by
  match wh, h4 with
  | [], _ => exact ⟨[], rfl, fun tail => ⟨by simp [condTail, whereStr], fun h _ => by simpa [condTail] using h⟩⟩
  | [w], _ =>
    by_cases he : ∃ v b, w = .equal v b
    · obtain ⟨v, b, rfl⟩ := he
      obtain ⟨N, hN, x, hx, hxn, _⟩ := h3 v b (by simp)
      refine ⟨[x.name ++ " = " ++ v], by simp [NFeat.baseNames, NFeat.namesOf, hx, Except.bind, Except.map, plainNames], ?_⟩
      intro tail
      refine ⟨?_, ?_⟩
      · simp [condTail, trees, tree, Tree.text, condValue, valueText, whereStr, hxn, (hN none).1]
      · intro hg hn
        refine ⟨?_, ?_, hg, hn⟩
        · simpa [tree] using (hN none).2
        · intro y hy
          simp only [condValue, Option.some.injEq] at hy
          subst hy; exact isPhrase_toList (h2 v b (by simp))
    · have hw : ∀ v b, w ≠ .equal v b := fun v b e => he ⟨v, b, e⟩
      obtain ⟨N, hN, x, hx, hxn, _⟩ := h1 w (by simp) hw
      have hv : condValue w = none := by
        cases w <;> first | rfl | exact absurd rfl (hw _ _)
      refine ⟨[x.name], by simp [NFeat.baseNames, hx, Except.bind, Except.map], ?_⟩
      intro tail
      refine ⟨?_, ?_⟩
      · simp [condTail, trees, Tree.text, hv, valueText, whereStr, hxn, (hN none).1]
      · intro hg hn
        refine ⟨(hN none).2, ?_, hg, hn⟩
        intro y hy; rw [hv] at hy; cases hy

/-- The name of an output. -/
def numbered (s : String) : Option Nat → String
  | none => s
  | some i => s ++ "[" ++ Nat.repr i ++ "]"

theorem numbered_text (s : String) (i : Option Nat) : (numbered s i).toList = s.toList ++ idxText i := by
  cases i <;> simp [numbered, idxText]

theorem named_of_made {V : Vocabulary} (hV : V.Clear) {e : String} {f : NFeat} (h : Made V e f) : Named V f := by
  induction h with
  | @identity e v hv =>
    refine ⟨fun _ => v, fun i => ⟨by simp [tree, Tree.text, Part.text], ⟨isWord_toList hv, fun v h => by cases h⟩⟩, ?_⟩
    exact ⟨_, rfl, rfl, fun h => h.elim⟩
  | @direct r b hr hb ih =>
    obtain ⟨N, hN, x, hx, hxn, _⟩ := ih
    obtain ⟨n, hn, hn'⟩ := forwardName_ok hr
    refine ⟨fun _ => n ++ "." ++ N none, fun i => ⟨?_, ?_⟩, ?_⟩
    · simp [tree, Tree.text, hn', (hN none).1]
    · exact ⟨parentPart_good hV hr, (hN none).2⟩
    · exact ⟨_, by simp [NFeat.namesOf, hn, hx, Except.bind, Except.map]; rfl, by simp [plainNames, hxn], fun h => h.elim⟩
  | @count e child p path wh prev hp hc hne hch hw1 hw2 hw3 hw4 hprev ih1 ih2 =>
    obtain ⟨pn, hpn, hpn'⟩ := aggPathName_ok hV hne hch
    obtain ⟨hg0, hg⟩ := pathParts_good hV hne (down_of_chain hch.1)
    obtain ⟨hup, hargs, _⟩ := hV.counting p hp hc
    obtain ⟨ws, hws, hws'⟩ := cond_ok ih1 hw2 ih2 hw4
    obtain ⟨s, hs, _⟩ := window_text hV hprev (.close none)
    have hs' : ∀ tail, (windowTail prev tail).text = s.toList ++ tail.text := by
      intro tail
      obtain ⟨s', h1, h2⟩ := window_text hV hprev tail
      rw [hs] at h1; cases h1; exact h2
    have ht : ∀ i, tree V i (.agg p path [.identity (V.index child)] wh prev) =
        .app "COUNT".toList (words (pathParts V.rels path)) (condTail wh (trees V wh) (windowTail prev (.close i))) := by
      intro i; simp [tree, hc, applyTree, hup]
    refine ⟨numbered ("COUNT(" ++ pn ++ whereStr ws ++ s ++ ")"), fun i => ⟨?_, ?_⟩, ?_⟩
    · rw [ht, numbered_text]
      simp [Tree.text, (hws' _).1, hs', hpn', String.toList_append]
    · rw [ht]
      obtain ⟨h1, h2⟩ := window_good hV hprev (tail := .close i) trivial trivial
      exact ⟨⟨by decide, by decide⟩, words_good hg0 hg, (hws' _).2 h1 h2⟩
    · refine ⟨_, by simp [NFeat.namesOf, hpn, hws, hs, Except.bind, Except.map, NFeat.baseNames]; rfl, ?_, fun _ => ?_⟩
      · simp [plainNames, aggName, hc, numbered]
      · simp [plainNames, aggName, hc, numbered, indexed, NFeat.outputs]; rfl
  | @agg e child p path bases wh prev hp htr hc hne hch hb0 hb hw1 hw2 hw3 hw4 hprev ih ih1 ih2 =>
    obtain ⟨pn, hpn, hpn'⟩ := aggPathName_ok hV hne hch
    obtain ⟨hg0, hg⟩ := pathParts_good hV hne (down_of_chain hch.1)
    obtain ⟨ns, hns, hns', hts⟩ := baseNames_ok ih
    obtain ⟨ws, hws, hws'⟩ := cond_ok ih1 hw2 ih2 hw4
    obtain ⟨s, hs, _⟩ := window_text hV hprev (.close none)
    have hs' : ∀ tail, (windowTail prev tail).text = s.toList ++ tail.text := by
      intro tail
      obtain ⟨s', h1, h2⟩ := window_text hV hprev tail
      rw [hs] at h1; cases h1; exact h2
    obtain ⟨b, bs, rfl⟩ := List.exists_cons_of_ne_nil hb0
    cases ns with
    | nil => simp [trees] at hns'
    | cons n ns =>
    have hj := join_text n ns _ _ hns'
    have ht : ∀ i, tree V i (.agg p path (b :: bs) wh prev) =
        .app (V.upper p.name).toList (dots (pathParts V.rels path) (tree V none b))
          (inputs (trees V bs) (condTail wh (trees V wh) (windowTail prev (argsTail p.args (.close i))))) := by
      intro i; simp [tree, hc, applyTree, trees]
    refine ⟨numbered (V.upper p.name ++ "(" ++ pn ++ "." ++ String.intercalate ", " (n :: ns) ++ whereStr ws ++ s ++
      argsString p.args ++ ")"), fun i => ⟨?_, ?_⟩, ?_⟩
    · rw [ht, numbered_text]
      simp [Tree.text, inputs_text, (hws' _).1, hs', hpn', String.toList_append, hj, args_text, dots_text hg0]
    · rw [ht]
      obtain ⟨h1, h2⟩ := args_good (hV.primArgs p hp) (tail := .close i) trivial trivial
      obtain ⟨h3, h4⟩ := window_good hV hprev h1 h2
      refine ⟨isWord_toList (hV.primNames p hp), dots_good (hts _ (by simp [trees])) hg,
        inputs_good (fun t ht => hts t (by simp [trees, ht])) ((hws' _).2 h3 h4)⟩
    · refine ⟨_, by simp [NFeat.namesOf, hpn, hns, hws, hs, Except.bind, Except.map]; rfl, ?_, fun _ => ?_⟩
      · simp [plainNames, aggName, hc, numbered]
      · simp [plainNames, aggName, hc, numbered, indexed, NFeat.outputs]; rfl
  | @trans e p bases hp htr hb0 hb ih =>
    obtain ⟨ns, hns, hns', hts⟩ := baseNames_ok ih
    obtain ⟨b, bs, rfl⟩ := List.exists_cons_of_ne_nil hb0
    cases ns with
    | nil => simp [trees] at hns'
    | cons n ns =>
    have hj := join_text n ns _ _ hns'
    have ht : ∀ i, tree V i (.trans p (b :: bs)) = .app (V.upper p.name).toList (tree V none b)
          (inputs (trees V bs) (argsTail p.args (.close i))) := by
      intro i; simp [tree, applyTree, trees, dots]
    refine ⟨numbered (transName V.upper p (n :: ns)), fun i => ⟨?_, ?_⟩, ?_⟩
    · rw [ht, numbered_text]
      simp [Tree.text, inputs_text, String.toList_append, hj, args_text, transName]
    · rw [ht]
      obtain ⟨h1, h2⟩ := args_good (hV.primArgs p hp) (tail := .close i) trivial trivial
      exact ⟨isWord_toList (hV.primNames p hp), hts _ (by simp [trees]),
        inputs_good (fun t ht => hts t (by simp [trees, ht])) h1⟩
    · refine ⟨_, by simp [NFeat.namesOf, hns, Except.map]; rfl, ?_, fun _ => ?_⟩
      · simp [plainNames, numbered]
      · simp [plainNames, numbered, indexed, NFeat.outputs]; rfl
  | @groupby e p bases g hp htr hb0 hb hg ih ihg =>
    obtain ⟨ns, hns, hns', hts⟩ := baseNames_ok ih
    obtain ⟨N, hN, x, hx, hxn, _⟩ := ihg
    obtain ⟨b, bs, rfl⟩ := List.exists_cons_of_ne_nil hb0
    cases ns with
    | nil => simp [trees] at hns'
    | cons n ns =>
    have hj := join_text n ns _ _ hns'
    have ht : ∀ i, tree V i (.groupby p (b :: bs) g) = .app (V.upper p.name).toList (tree V none b)
          (inputs (trees V bs) (argsTail p.args (.closeBy i (tree V none g)))) := by
      intro i; simp [tree, applyTree, trees, dots]
    refine ⟨fun i => numbered (transName V.upper p (n :: ns)) i ++ " by " ++ N none, fun i => ⟨?_, ?_⟩, ?_⟩
    · rw [ht]
      simp only [String.toList_append, numbered_text]
      simp [Tree.text, inputs_text, String.toList_append, hj, args_text, transName, (hN none).1]
    · rw [ht]
      obtain ⟨h1, h2⟩ := args_good (hV.primArgs p hp) (tail := .closeBy i (tree V none g)) (hN none).2 trivial
      exact ⟨isWord_toList (hV.primNames p hp), hts _ (by simp [trees]),
        inputs_good (fun t ht => hts t (by simp [trees, ht])) h1⟩
    · refine ⟨_, by simp [NFeat.namesOf, hns, hx, Except.bind, Except.map]; rfl, ?_, fun _ => ?_⟩
      · simp [plainNames, numbered, hxn]
      · simp [plainNames, numbered, indexed, NFeat.outputs, hxn]; rfl
  | @slice e b n hb ha h1 h2 ih =>
    obtain ⟨N, hN, x, hx, hxn, hap⟩ := ih
    have hx' := hap ha
    refine ⟨fun _ => N (some n), fun i => ⟨?_, ?_⟩, ?_⟩
    · simpa [tree] using (hN (some n)).1
    · simpa [tree] using (hN (some n)).2
    · refine ⟨plainNames 1 (N (some n)) [N (some n)], ?_, rfl, fun h => h.elim⟩
      simp only [NFeat.namesOf, hx, Except.bind, hx', plainNames]
      rw [if_neg (by omega)]
      simp [h2]

end Reading
end FT
