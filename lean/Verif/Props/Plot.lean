import Verif.Spec.Plot
import Verif.Lemmas.Timedelta
import Verif.Spec.DfsInput
import Verif.Lemmas.Operators5
import Verif.Props.EntitySet
/-! # Properties of pictures and texts of entity sets: C91 -/
namespace FT
open Spec

/-! ## Helpers -/

theorem plain_not {s : String} (h : PlainId s) {c : Char} (hc : c ∈ ['\n', '[', '.', '-', ':', '|', '\\', '(']) : c ∉ s.toList :=
  fun hm => h c hm hc

theorem nat_repr_inj {m n : Nat} (h : (Nat.repr m).toList = (Nat.repr n).toList) : m = n := by
  have h := String.toList_inj.mp h
  have h1 := Nat.toNat?_repr m
  rw [h, Nat.toNat?_repr] at h1
  exact (Option.some.inj h1).symm

theorem nat_repr_not (n : Nat) (c : Char) (hc : c.isDigit = false) : c ∉ (Nat.repr n).toList := by
  intro h
  rw [Nat.toList_repr] at h
  have := Nat.isDigit_of_mem_toDigits (by decide) (by decide) h
  rw [hc] at this; cases this

/-- The text about variables. -/
def varText (vs : List Var) : List Char := vs.flatMap fun v => v.id.toList ++ ' ' :: ':' :: ' ' :: (v.type.toList ++ ['\\', 'l'])

theorem intercalate_vars : ∀ vs : List Var, vs ≠ [] →
    (String.intercalate "\\l" (vs.map fun v => v.id ++ " : " ++ v.type)).toList ++ ['\\', 'l'] = varText vs
  | [], h => absurd rfl h
  | [v], _ => by simp [varText]
  | v :: w :: vs, _ => by
    have ih := intercalate_vars (w :: vs) (by simp)
    simp only [List.map_cons] at ih ⊢
    rw [String.intercalate_cons_cons, String.toList_append, List.append_assoc, ih]
    simp [varText]

theorem variableLines_iff : ∀ (vs : List Var) (s : String), VariableLines vs s ↔ s.toList = varText vs
  | [], s => by
    simp only [VariableLines, varText, List.flatMap_nil]
    rw [← String.toList_inj]; rfl
  | v :: vs, s => by
    simp only [VariableLines]
    constructor
    · rintro ⟨t, ht, rfl⟩
      rw [variableLines_iff vs] at ht
      simp [varText, ht] 
    · intro h
      refine ⟨String.ofList (varText vs), (variableLines_iff vs _).mpr (by simp), ?_⟩
      rw [← String.toList_inj, h]
      simp [varText]

theorem varText_inj : ∀ (vs ws : List Var), (∀ v ∈ vs, PlainId v.id ∧ PlainId v.type) → (∀ v ∈ ws, PlainId v.id ∧ PlainId v.type) →
    varText vs ++ ['}'] = varText ws ++ ['}'] → (vs.map fun v => (v.id, v.type)) = ws.map fun v => (v.id, v.type)
  | [], [], _, _, _ => rfl
  | [], w :: ws, _, hw, h => by
    exfalso
    have : '\\' ∈ varText (w :: ws) ++ ['}'] := by simp [varText]
    rw [← h] at this
    simp [varText] at this
  | v :: vs, [], _, _, h => by
    exfalso
    have : '\\' ∈ varText (v :: vs) ++ ['}'] := by simp [varText]
    rw [h] at this
    simp [varText] at this
  | v :: vs, w :: ws, hv, hw, h => by
    obtain ⟨v1, v2⟩ := hv v (by simp)
    obtain ⟨w1, w2⟩ := hw w (by simp)
    have hsp : ∀ (u : String), PlainId u → ':' ∉ u.toList ++ [' '] := fun u hu hm => by
      rcases List.mem_append.mp hm with hm | hm
      · exact plain_not hu (by decide) hm
      · simp at hm
    have h' : (v.id.toList ++ [' ']) ++ ':' :: (' ' :: (v.type.toList ++ '\\' :: 'l' :: (varText vs ++ ['}']))) =
        (w.id.toList ++ [' ']) ++ ':' :: (' ' :: (w.type.toList ++ '\\' :: 'l' :: (varText ws ++ ['}']))) := by
      simpa [varText] using h
    obtain ⟨e1, e2⟩ := Timedelta.split_at_sep (hsp _ v1) (hsp _ w1) h'
    simp only [List.cons.injEq, true_and] at e2
    obtain ⟨e3, e4⟩ := Timedelta.split_at_sep (plain_not v2 (by decide)) (plain_not w2 (by decide)) e2
    simp only [List.cons.injEq, true_and] at e4
    have e5 : v.id = w.id := String.toList_inj.mp (List.append_cancel_right e1)
    have e6 : v.type = w.type := String.toList_inj.mp e3
    rw [List.map_cons, List.map_cons, e5, e6, varText_inj vs ws (fun x hx => hv x (by simp [hx])) (fun x hx => hw x (by simp [hx])) e4]

theorem takeWhile_all {α : Type} {p : α → Bool} : ∀ {l : List α}, (∀ x ∈ l, p x = true) → l.takeWhile p = l
  | [], _ => rfl
  | x :: l, h => by rw [List.takeWhile_cons_of_pos (h x (by simp)), takeWhile_all fun y hy => h y (by simp [hy])]

theorem arrowEnd_colon {s : String} (h : ':' ∉ s.toList) : arrowEnd s = s := by
  unfold arrowEnd
  rw [← String.toList_inj, String.toList_ofList]
  refine takeWhile_all fun c hc => ?_
  simp only [bne_iff_ne, ne_eq]
  rintro rfl
  exact h hc

theorem arrowEnd_plain {s : String} (h : PlainId s) : arrowEnd s = s := arrowEnd_colon (plain_not h (by decide))

theorem label_chars (x : Entity) (hv : x.vars ≠ []) : (boxLabel false x).toList =
    '{' :: ((x.id.toList ++ [' ']) ++ '(' :: ((Nat.repr x.df.rows.length).toList ++ ' ' :: ("row".toList ++
      ((if x.df.rows.length > 1 then ['s'] else []) ++ ')' :: '|' :: (varText x.vars ++ ['}']))))) := by
  unfold boxLabel
  rw [if_neg (by decide), ← intercalate_vars _ hv]
  simp only [String.toList_append]
  split <;> simp

theorem label_dask_chars (x : Entity) (hv : x.vars ≠ []) : (boxLabel true x).toList =
    '{' :: ((x.id.toList ++ [' ']) ++ '|' :: (varText x.vars ++ ['}'])) := by
  unfold boxLabel
  rw [if_pos rfl, ← intercalate_vars _ hv]
  simp only [String.toList_append]
  simp

/-! ## The picture -/

/-- C91. There is a box for every entity, with its name, the number of its rows (if it is not kept in Dask) and a line for every
variable, and no other box. -/
theorem C91_boxes (dask : String → Bool) (es : ESet) (he : ∀ x ∈ es.entities, x.vars ≠ []) (n t : String) :
    (n, t) ∈ (drawEntitySet dask es).boxes ↔ ∃ x ∈ es.entities, x.id = n ∧ ∃ s, VariableLines x.vars s ∧
      ((dask n = true ∧ t = "{" ++ n ++ " |" ++ s ++ "}") ∨
       (dask n = false ∧ 1 < x.df.rows.length ∧ t = "{" ++ n ++ " (" ++ toString x.df.rows.length ++ " rows)|" ++ s ++ "}") ∨
       (dask n = false ∧ x.df.rows.length ≤ 1 ∧ t = "{" ++ n ++ " (" ++ toString x.df.rows.length ++ " row)|" ++ s ++ "}")) := by
  simp only [drawEntitySet, List.mem_map, Prod.mk.injEq]
  have key : ∀ x ∈ es.entities, (boxLabel (dask x.id) x = t ↔ ∃ s, VariableLines x.vars s ∧
      ((dask x.id = true ∧ t = "{" ++ x.id ++ " |" ++ s ++ "}") ∨
       (dask x.id = false ∧ 1 < x.df.rows.length ∧ t = "{" ++ x.id ++ " (" ++ toString x.df.rows.length ++ " rows)|" ++ s ++ "}") ∨
       (dask x.id = false ∧ x.df.rows.length ≤ 1 ∧ t = "{" ++ x.id ++ " (" ++ toString x.df.rows.length ++ " row)|" ++ s ++ "}"))) := by
    intro x hx
    have hv := he x hx
    have hrep : (toString x.df.rows.length) = Nat.repr x.df.rows.length := rfl
    have hs : ∀ s, VariableLines x.vars s ↔ s = String.ofList (varText x.vars) := fun s => by
      rw [variableLines_iff, ← String.toList_inj, String.toList_ofList]
    simp only [hs, exists_eq_left, hrep]
    cases hd : dask x.id with
    | true =>
      simp only [Bool.true_eq_false, false_and, or_false, true_and]
      rw [← String.toList_inj, label_dask_chars x hv, ← String.toList_inj]
      simp only [String.toList_append, String.toList_ofList]
      constructor <;> intro h <;> simpa using h.symm
    | false =>
      simp only [Bool.false_eq_true, false_and, false_or, true_and]
      rw [← String.toList_inj, label_chars x hv]
      by_cases h1 : 1 < x.df.rows.length
      · simp only [h1, true_and, show ¬ x.df.rows.length ≤ 1 by omega, false_and, or_false, gt_iff_lt, if_true]
        rw [← String.toList_inj]
        simp only [String.toList_append, String.toList_ofList]
        constructor <;> intro h <;> simpa using h.symm
      · simp only [h1, false_and, false_or, show x.df.rows.length ≤ 1 by omega, true_and, gt_iff_lt, if_false]
        rw [← String.toList_inj]
        simp only [String.toList_append, String.toList_ofList]
        constructor <;> intro h <;> simpa using h.symm
  constructor
  · rintro ⟨x, hx, rfl, h⟩
    exact ⟨x, hx, rfl, (key x hx).mp h⟩
  · rintro ⟨x, hx, rfl, h⟩
    exact ⟨x, hx, rfl, (key x hx).mpr h⟩

/-- C91. Each relationship is an arrow from the box of the child to the box of the parent, with the variables that link them, in the
order of the relationships. Missing: names of entities with colons (`C91_colon_violated`). -/
theorem C91_arrows_partial (dask : String → Bool) (es : ESet) (hp : ∀ r ∈ es.rels, ':' ∉ r.childE.toList ∧ ':' ∉ r.parentE.toList) :
    EachOf (fun r a => a.1 = r.childE ∧ a.2.1 = r.parentE ∧ ArrowText r a.2.2) es.rels (drawEntitySet dask es).arrows := by
  have hend : ∀ s : String, ':' ∉ s.toList → arrowEnd s = s := fun s hs => arrowEnd_colon hs
  show EachOf _ es.rels (es.rels.map _)
  generalize es.rels = rs at hp
  induction rs with
  | nil => exact .nil
  | cons r rs ih =>
    refine .cons ⟨hend _ (hp r (by simp)).1, hend _ (hp r (by simp)).2, ?_⟩ (ih fun q hq => hp q (by simp [hq]))
    show ArrowText r (arrowLabel r)
    unfold arrowLabel ArrowText
    split
    · exact .inl ⟨‹_›, rfl⟩
    · exact .inr ⟨‹_›, rfl⟩

/-- C91. The picture tells entity sets with plain names apart: those with the same picture have the same entities with as many rows
and the same variables of the same types, and the same relationships, in the same order. -/
theorem C91_picture_tells_partial (es es' : ESet) (h : PlainSet es) (h' : PlainSet es')
    (hd : drawEntitySet (fun _ => false) es = drawEntitySet (fun _ => false) es') :
    (es.entities.map fun x => (x.id, x.df.rows.length, x.vars.map fun v => (v.id, v.type))) =
      (es'.entities.map fun x => (x.id, x.df.rows.length, x.vars.map fun v => (v.id, v.type))) ∧ es.rels = es'.rels := by
  simp only [drawEntitySet, Picture.mk.injEq] at hd
  obtain ⟨hb, ha⟩ := hd
  constructor
  · have he := h.entities
    have he' := h'.entities
    generalize es.entities = xs at hb he
    generalize es'.entities = ys at hb he'
    clear h h' ha
    induction xs generalizing ys with
    | nil => cases ys with
      | nil => rfl
      | cons y ys => cases hb
    | cons x xs ih => cases ys with
      | nil => cases hb
      | cons y ys =>
        simp only [List.map_cons, List.cons.injEq, Prod.mk.injEq] at hb ⊢
        obtain ⟨⟨h1, h2⟩, h3⟩ := hb
        refine ⟨⟨h1, ?_⟩, ih (fun z hz => he z (by simp [hz])) ys h3 (fun z hz => he' z (by simp [hz]))⟩
        obtain ⟨x1, x2, x3⟩ := he x (by simp)
        obtain ⟨y1, y2, y3⟩ := he' y (by simp)
        have h2 := congrArg String.toList h2
        rw [label_chars x x2, label_chars y y2, h1] at h2
        simp only [List.append_assoc, List.cons_append, List.cons.injEq, true_and, List.append_cancel_left_eq, List.nil_append] at h2
        obtain ⟨e1, e2⟩ := Timedelta.split_at_sep (nat_repr_not _ ' ' (by decide)) (nat_repr_not _ ' ' (by decide)) h2
        have e1 := nat_repr_inj e1
        rw [e1] at e2
        simp only [List.append_cancel_left_eq, List.cons.injEq, true_and] at e2
        exact ⟨e1, varText_inj _ _ x3 y3 e2⟩
  · have hr := h.rels
    have hr' := h'.rels
    generalize es.rels = xs at ha hr
    generalize es'.rels = ys at ha hr'
    clear h h' hb
    induction xs generalizing ys with
    | nil => cases ys with
      | nil => rfl
      | cons y ys => cases ha
    | cons r xs ih => cases ys with
      | nil => cases ha
      | cons q ys =>
        simp only [List.map_cons, List.cons.injEq, Prod.mk.injEq] at ha ⊢
        obtain ⟨⟨h1, h2, h3⟩, h4⟩ := ha
        refine ⟨?_, ih (fun z hz => hr z (by simp [hz])) ys h4 (fun z hz => hr' z (by simp [hz]))⟩
        obtain ⟨r1, r2, r3, r4⟩ := hr r (by simp)
        obtain ⟨q1, q2, q3, q4⟩ := hr' q (by simp)
        rw [arrowEnd_plain r1, arrowEnd_plain q1] at h1
        rw [arrowEnd_plain r3, arrowEnd_plain q3] at h2
        have hsp : ∀ (u : String), PlainId u → '-' ∉ u.toList ++ [' '] := fun u hu hm => by
          rcases List.mem_append.mp hm with hm | hm
          · exact plain_not hu (by decide) hm
          · simp at hm
        have hone : ∀ (u v w : String), PlainId u → u ≠ v ++ " -> " ++ w := fun u v w hu e => by
          have : '-' ∈ u.toList := by rw [e]; simp
          exact plain_not hu (by decide) this
        have h5 : r.parentV = q.parentV ∧ r.childV = q.childV := by
          unfold arrowLabel at h3
          split at h3 <;> rename_i ra <;> split at h3 <;> rename_i qa
          · exact ⟨h3, by rw [← ra, ← qa, h3]⟩
          · exact absurd h3 (hone _ _ _ r4)
          · exact absurd h3.symm (hone _ _ _ q4)
          · have h3 := congrArg String.toList h3
            have h3 : (r.parentV.toList ++ [' ']) ++ '-' :: ('>' :: ' ' :: r.childV.toList) = (q.parentV.toList ++ [' ']) ++ '-' :: ('>' :: ' ' :: q.childV.toList) := by
              simpa using h3
            obtain ⟨e1, e2⟩ := Timedelta.split_at_sep (hsp _ r4) (hsp _ q4) h3
            simp only [List.cons.injEq, true_and] at e2
            exact ⟨String.toList_inj.mp (List.append_cancel_right e1), String.toList_inj.mp e2⟩
        obtain ⟨pe, pv, ce, cv⟩ := r
        obtain ⟨pe', pv', ce', cv'⟩ := q
        simp_all

/-! ## The file -/

theorem afterLastDot_eq (stem format : String) (hf : '.' ∉ format.toList) : afterLastDot (stem ++ "." ++ format) = format := by
  unfold afterLastDot
  rw [← String.toList_inj, String.toList_ofList]
  simp only [String.toList_append, List.reverse_append, List.append_assoc]
  rw [List.takeWhile_append_of_pos (by
    intro c hc
    simp only [bne_iff_ne, ne_eq]
    rintro rfl
    exact hf (List.mem_reverse.mp hc))]
  simp

theorem last_dot : ∀ (l : List Char), '.' ∈ l → ∃ a b, l = a ++ '.' :: b ∧ '.' ∉ b
  | [], h => by cases h
  | c :: l, h => by
    by_cases hl : '.' ∈ l
    · obtain ⟨a, b, rfl, hb⟩ := last_dot l hl
      exact ⟨c :: a, b, rfl, hb⟩
    · rcases List.mem_cons.mp h with rfl | h
      · exact ⟨[], l, rfl, hl⟩
      · exact absurd h hl

theorem dot_parts (s : String) (h : '.' ∈ s.toList) : ∃ stem, s = stem ++ "." ++ afterLastDot s ∧ '.' ∉ (afterLastDot s).toList := by
  obtain ⟨a, b, hab, hb⟩ := last_dot s.toList h
  have hs : s = String.ofList a ++ "." ++ String.ofList b := by rw [← String.toList_inj, hab]; simp
  have he : afterLastDot s = String.ofList b := by
    conv => lhs; rw [hs]
    exact afterLastDot_eq _ _ (by simpa using hb)
  exact ⟨String.ofList a, by rw [he]; exact hs, by rw [he]; simpa using hb⟩

theorem format_iff (formats : List String) (s : String) :
    ('.' ∈ s.toList ∧ afterLastDot s ∈ formats) ↔ NamesFormat formats s := by
  constructor
  · rintro ⟨h1, h2⟩
    obtain ⟨stem, h3, h4⟩ := dot_parts s h1
    exact ⟨stem, _, h3, h4, h2⟩
  · rintro ⟨stem, format, rfl, h1, h2⟩
    exact ⟨by simp, by rw [afterLastDot_eq _ _ h1]; exact h2⟩

theorem saved_self (stem format : String) : savedAs (.text (stem ++ "." ++ format)) format = .ok (stem ++ "." ++ format) := by
  unfold savedAs
  have : String.ofList ((stem ++ "." ++ format).toList.take ((stem ++ "." ++ format).toList.length - (format.toList.length + 1))) = stem := by
    rw [← String.toList_inj, String.toList_ofList]
    simp only [String.toList_append]
    rw [List.append_assoc, List.take_left' (by simp)]
  dsimp only
  rw [this]

/-- C91. Without a file name the picture is only returned. -/
theorem C91_not_saved (formats : List String) (dask : String → Bool) (es : ESet) :
    plotEntitySet formats dask es .none = .ok (drawEntitySet dask es, none) ∧
    plotEntitySet formats dask es (.text "") = .ok (drawEntitySet dask es, none) := ⟨rfl, rfl⟩

/-- C91. The picture is written to exactly the file that is named, if its name ends in one of the formats after its last dot;
otherwise `plot` raises a `ValueError` and writes nothing. -/
theorem C91_saved (formats : List String) (dask : String → Bool) (es : ESet) (s : String) (hs : s ≠ "") :
    (NamesFormat formats s → plotEntitySet formats dask es (.text s) = .ok (drawEntitySet dask es, some s)) ∧
    (¬ NamesFormat formats s → plotEntitySet formats dask es (.text s) = .error .valueError) := by
  have hg : (ToFile.text s).given = true := by simp [ToFile.given, hs]
  constructor
  · intro h
    have h' := (format_iff formats s).mpr h
    obtain ⟨stem, h3, _⟩ := dot_parts s h'.1
    unfold plotEntitySet pictureFormat
    rw [if_pos hg, show (ToFile.text s).str = s from rfl, if_pos h'.1, if_pos h'.2]
    dsimp only
    have := saved_self stem (afterLastDot s)
    rw [← h3] at this
    rw [this]
  · intro h
    have h' : ¬ ('.' ∈ s.toList ∧ afterLastDot s ∈ formats) := fun k => h ((format_iff formats s).mp k)
    unfold plotEntitySet pictureFormat
    rw [if_pos hg, show (ToFile.text s).str = s from rfl]
    by_cases h1 : '.' ∈ s.toList
    · rw [if_pos h1, if_neg fun k => h' ⟨h1, k⟩]
    · rw [if_neg h1]

/-- C91. No path object can be given for the file, although the tests on its name provide for one. -/
theorem C91_path_violated (formats : List String) (dask : String → Bool) (es : ESet) (s : String) (h : NamesFormat formats s) :
    plotEntitySet formats dask es (.path s) = .error .typeError := by
  have h' := (format_iff formats s).mpr h
  unfold plotEntitySet pictureFormat
  rw [if_pos (show (ToFile.path s).given = true from rfl), show (ToFile.path s).str = s from rfl, if_pos h'.1, if_pos h'.2]
  rfl

/-! ## The text -/

/-- The lines of `repr(es)`. -/
def entLine (x : Entity) : List Char :=
  "    ".toList ++ ((x.id.toList ++ [' ']) ++ '[' :: ("Rows: ".toList ++ ((Nat.repr x.df.rows.length).toList ++ ',' :: (" Columns: ".toList ++
    ((Nat.repr x.df.cols.length).toList ++ ']' :: [])))))

def relLine (r : Relationship) : List Char :=
  "    ".toList ++ (r.childE.toList ++ '.' :: ((r.childV.toList ++ [' ']) ++ '-' :: ('>' :: ' ' :: (r.parentE.toList ++ '.' :: r.parentV.toList))))

def relLines (rs : List Relationship) : List (List Char) := if rs = [] then ["    No relationships".toList] else rs.map relLine

def reprLines (id : String) (es : ESet) : List (List Char) :=
  ("Entityset: ".toList ++ id.toList) :: "  Entities:".toList :: (es.entities.map entLine ++ "  Relationships:".toList :: relLines es.rels)

theorem foldl_text {α : Type} (f : α → String) : ∀ (l : List α) (s : String),
    (l.foldl (fun out x => out ++ f x) s).toList = s.toList ++ l.flatMap fun x => (f x).toList
  | [], s => by simp
  | x :: l, s => by rw [List.foldl_cons, foldl_text f l]; simp

theorem flatMap_lines {α : Type} (f : α → List Char) (l : List α) : (l.flatMap fun x => '\n' :: f x) = (l.map f).flatMap fun t => '\n' :: t := by
  induction l with
  | nil => rfl
  | cons x l ih => simp [ih]

theorem repr_lines (id : String) (es : ESet) : '\n' :: (reprEntitySet id es).toList = (reprLines id es).flatMap fun l => '\n' :: l := by
  unfold reprEntitySet reprLines
  dsimp only
  rw [foldl_text (fun r : Relationship => "\n    " ++ r.childE ++ "." ++ r.childV ++ " -> " ++ r.parentE ++ "." ++ r.parentV)]
  have h1 : (es.entities.map entLine).flatMap (fun t => '\n' :: t) =
      es.entities.flatMap fun x => ("\n    " ++ x.id ++ " [Rows: " ++ Nat.repr x.df.rows.length ++ ", Columns: " ++ Nat.repr x.df.cols.length ++ "]").toList := by
    rw [← flatMap_lines]
    congr 1
    funext x
    simp [entLine]
  have h2 : (es.rels.map relLine).flatMap (fun t => '\n' :: t) =
      es.rels.flatMap fun r => ("\n    " ++ r.childE ++ "." ++ r.childV ++ " -> " ++ r.parentE ++ "." ++ r.parentV).toList := by
    rw [← flatMap_lines]
    congr 1
    funext r
    simp [relLine]
  rw [← h2]
  by_cases hr : es.rels = []
  · rw [hr]
    simp only [List.length_nil, if_true, List.map_nil, List.flatMap_nil, List.append_nil, String.toList_append]
    rw [foldl_text (fun x : Entity => "\n    " ++ x.id ++ " [Rows: " ++ Nat.repr x.df.rows.length ++ ", Columns: " ++ Nat.repr x.df.cols.length ++ "]"), ← h1]
    simp [relLines]
  · have hl : es.rels.length ≠ 0 := by simpa using hr
    rw [if_neg hl, String.toList_append,
      foldl_text (fun x : Entity => "\n    " ++ x.id ++ " [Rows: " ++ Nat.repr x.df.rows.length ++ ", Columns: " ++ Nat.repr x.df.cols.length ++ "]"), ← h1]
    simp [relLines, hr]

theorem lines_inj : ∀ (l m : List (List Char)), (∀ t ∈ l, '\n' ∉ t) → (∀ t ∈ m, '\n' ∉ t) →
    (l.flatMap fun t => '\n' :: t) = (m.flatMap fun t => '\n' :: t) → l = m
  | [], [], _, _, _ => rfl
  | [], _ :: _, _, _, h => by simp at h
  | _ :: _, [], _, _, h => by simp at h
  | [a], [b], _, _, h => by simpa using h
  | [a], b :: c :: m, ha, _, h => by
    simp only [List.flatMap_cons, List.flatMap_nil, List.append_nil, List.cons_append, List.cons.injEq, true_and] at h
    exact absurd (show '\n' ∈ a by rw [h]; simp) (ha a (by simp))
  | b :: c :: m, [a], _, ha, h => by
    simp only [List.flatMap_cons, List.flatMap_nil, List.append_nil, List.cons_append, List.cons.injEq, true_and] at h
    exact absurd (show '\n' ∈ a by rw [← h]; simp) (ha a (by simp))
  | a :: a' :: l, b :: b' :: m, ha, hb, h => by
    have h' : a ++ '\n' :: (a' ++ l.flatMap fun t => '\n' :: t) = b ++ '\n' :: (b' ++ m.flatMap fun t => '\n' :: t) := by simpa using h
    obtain ⟨e1, e2⟩ := Timedelta.split_at_sep (ha a (by simp)) (hb b (by simp)) h'
    have := lines_inj (a' :: l) (b' :: m) (fun t ht => ha t (by simp at ht ⊢; exact .inr ht)) (fun t ht => hb t (by simp at ht ⊢; exact .inr ht)) (by simpa using e2)
    rw [e1, this]

theorem entLine_inj {x y : Entity} (hx : PlainId x.id) (hy : PlainId y.id) (h : entLine x = entLine y) :
    x.id = y.id ∧ x.df.rows.length = y.df.rows.length ∧ x.df.cols.length = y.df.cols.length := by
  unfold entLine at h
  have hsp : ∀ (u : String), PlainId u → '[' ∉ u.toList ++ [' '] := fun u hu hm => by
    rcases List.mem_append.mp hm with hm | hm
    · exact plain_not hu (by decide) hm
    · simp at hm
  obtain ⟨e1, e2⟩ := Timedelta.split_at_sep (hsp _ hx) (hsp _ hy) (List.append_cancel_left h)
  obtain ⟨e3, e4⟩ := Timedelta.split_at_sep (nat_repr_not _ ',' (by decide)) (nat_repr_not _ ',' (by decide)) (List.append_cancel_left e2)
  obtain ⟨e5, _⟩ := Timedelta.split_at_sep (nat_repr_not _ ']' (by decide)) (nat_repr_not _ ']' (by decide)) (List.append_cancel_left e4)
  exact ⟨String.toList_inj.mp (List.append_cancel_right e1), nat_repr_inj e3, nat_repr_inj e5⟩

theorem relLine_inj {r q : Relationship} (hr : PlainId r.childE ∧ PlainId r.childV ∧ PlainId r.parentE ∧ PlainId r.parentV)
    (hq : PlainId q.childE ∧ PlainId q.childV ∧ PlainId q.parentE ∧ PlainId q.parentV) (h : relLine r = relLine q) : r = q := by
  unfold relLine at h
  have hsp : ∀ (u : String), PlainId u → '-' ∉ u.toList ++ [' '] := fun u hu hm => by
    rcases List.mem_append.mp hm with hm | hm
    · exact plain_not hu (by decide) hm
    · simp at hm
  obtain ⟨e1, e2⟩ := Timedelta.split_at_sep (plain_not hr.1 (by decide)) (plain_not hq.1 (by decide)) (List.append_cancel_left h)
  obtain ⟨e3, e4⟩ := Timedelta.split_at_sep (hsp _ hr.2.1) (hsp _ hq.2.1) e2
  simp only [List.cons.injEq, true_and] at e4
  obtain ⟨e5, e6⟩ := Timedelta.split_at_sep (plain_not hr.2.2.1 (by decide)) (plain_not hq.2.2.1 (by decide)) e4
  have e3 := List.append_cancel_right e3
  obtain ⟨pe, pv, ce, cv⟩ := r
  obtain ⟨pe', pv', ce', cv'⟩ := q
  rw [String.toList_inj] at e1 e3 e5 e6
  simp_all

theorem plain_line {s : String} (h : PlainId s) : '\n' ∉ s.toList := plain_not h (by decide)

theorem entLine_line {x : Entity} (h : PlainId x.id) : '\n' ∉ entLine x := by
  have h1 := plain_line h
  have h2 := nat_repr_not x.df.rows.length '\n' (by decide)
  have h3 := nat_repr_not x.df.cols.length '\n' (by decide)
  unfold entLine
  simp only [List.mem_append, List.mem_cons, not_or]
  refine ⟨by decide, ⟨h1, by decide⟩, by decide, by decide, h2, by decide, by decide, h3, by decide, by decide⟩

theorem relLine_line {r : Relationship} (hr : PlainId r.childE ∧ PlainId r.childV ∧ PlainId r.parentE ∧ PlainId r.parentV) : '\n' ∉ relLine r := by
  unfold relLine
  simp only [List.mem_append, List.mem_cons, not_or]
  exact ⟨by decide, plain_line hr.1, by decide, ⟨plain_line hr.2.1, by decide⟩, by decide, by decide, by decide, plain_line hr.2.2.1, by decide, plain_line hr.2.2.2⟩

theorem map_inj_on {α β : Type} {f : α → β} : ∀ (l m : List α), (∀ x ∈ l, ∀ y ∈ m, f x = f y → x = y) → l.map f = m.map f → l = m
  | [], [], _, _ => rfl
  | [], _ :: _, _, h => by cases h
  | _ :: _, [], _, h => by cases h
  | x :: l, y :: m, hi, h => by
    simp only [List.map_cons, List.cons.injEq] at h
    rw [hi x (by simp) y (by simp) h.1, map_inj_on l m (fun a ha b hb => hi a (by simp [ha]) b (by simp [hb])) h.2]

theorem relLines_inj {rs qs : List Relationship} (hr : ∀ r ∈ rs, PlainId r.childE ∧ PlainId r.childV ∧ PlainId r.parentE ∧ PlainId r.parentV)
    (hq : ∀ q ∈ qs, PlainId q.childE ∧ PlainId q.childV ∧ PlainId q.parentE ∧ PlainId q.parentV) (h : relLines rs = relLines qs) : rs = qs := by
  have hno : ∀ (r : Relationship) l, relLine r :: l ≠ ["    No relationships".toList] := fun r l e => by
    have : '.' ∈ relLine r := by simp [relLine]
    simp only [List.cons.injEq] at e
    rw [e.1] at this
    revert this; decide
  unfold relLines at h
  split at h <;> rename_i h1 <;> split at h <;> rename_i h2
  · rw [h1, h2]
  · cases qs with
    | nil => exact absurd rfl h2
    | cons q qs => exact absurd h.symm (hno q _)
  · cases rs with
    | nil => exact absurd rfl h1
    | cons q qs => exact absurd h (hno q _)
  · exact map_inj_on _ _ (fun r hr' q hq' => relLine_inj (hr r hr') (hq q hq')) h

/-- C91. The text of an entity set tells entity sets with plain names apart: with the same text they have the same name, the same
entities with as many rows and columns, and the same relationships, in the same order. -/
theorem C91_text_tells_partial (id id' : String) (es es' : ESet) (hi : PlainId id) (hi' : PlainId id') (h : PlainSet es) (h' : PlainSet es')
    (ht : reprEntitySet id es = reprEntitySet id' es') :
    id = id' ∧ (es.entities.map fun x => (x.id, x.df.rows.length, x.df.cols.length)) =
      (es'.entities.map fun x => (x.id, x.df.rows.length, x.df.cols.length)) ∧ es.rels = es'.rels := by
  have hl : ∀ (id : String) (es : ESet), PlainId id → PlainSet es → ∀ t ∈ reprLines id es, '\n' ∉ t := by
    intro id es hi h t ht
    unfold reprLines at ht
    simp only [List.mem_cons, List.mem_append, List.mem_map] at ht
    rcases ht with rfl | rfl | ⟨x, hx, rfl⟩ | rfl | ht
    · rw [List.mem_append]
      rintro (hm | hm)
      · revert hm; decide
      · exact plain_line hi hm
    · decide
    · exact entLine_line (h.entities x hx).1
    · decide
    · unfold relLines at ht
      split at ht
      · simp only [List.mem_singleton] at ht; rw [ht]; decide
      · obtain ⟨r, hr, rfl⟩ := List.mem_map.mp ht
        exact relLine_line (h.rels r hr)
  have he := lines_inj _ _ (hl id es hi h) (hl id' es' hi' h') (by rw [← repr_lines, ← repr_lines, ht])
  unfold reprLines at he
  simp only [List.cons.injEq, true_and] at he
  obtain ⟨e1, e2⟩ := he
  have hne : ∀ (es : ESet), ∀ t ∈ es.entities.map entLine, ¬ t = "  Relationships:".toList := by
    intro es t ht e
    obtain ⟨x, _, rfl⟩ := List.mem_map.mp ht
    unfold entLine at e
    exact absurd (congrArg (fun l => l[2]?) e) (by simp)
  obtain ⟨e3, _, e4⟩ := split_first (S := fun t => t = "  Relationships:".toList) e2 (hne es) (hne es') rfl rfl
  refine ⟨String.toList_inj.mp (List.append_cancel_left e1), ?_, relLines_inj h.rels h'.rels e4⟩
  have p1 := fun x hx => (h.entities x hx).1
  have p2 := fun x hx => (h'.entities x hx).1
  generalize es.entities = xs at e3 p1
  generalize es'.entities = ys at e3 p2
  clear h h' ht e1 e2 e4 hne hl
  induction xs generalizing ys with
  | nil => cases ys with
    | nil => rfl
    | cons y ys => cases e3
  | cons x xs ih => cases ys with
    | nil => cases e3
    | cons y ys =>
      simp only [List.map_cons, List.cons.injEq] at e3 ⊢
      obtain ⟨q1, q2, q3⟩ := entLine_inj (p1 x (by simp)) (p2 y (by simp)) e3.1
      exact ⟨by rw [q1, q2, q3], ih (fun z hz => p1 z (by simp [hz])) ys e3.2 (fun z hz => p2 z (by simp [hz]))⟩

/-! ## Examples -/

namespace PlotExample
open EsExample

def formats : List String := ["png", "pdf", "svg"]

/-- `rel` with an entity named with a colon. -/
def colonSet : ESet := { es3 with entities := es3.entities.map fun x => if x.id = "custs" then { x with id := "shop:custs" } else x,
                                  rels := [⟨"shop:custs", "id", "orders", "cust"⟩] }

/-- One variable whose name looks like two. -/
def oneVar (names : List String) : ESet := { ESet.empty with entities := [⟨"e", "a", none, [], none, names.map fun n => ⟨n, "index", none, none, [], []⟩, ⟨⟨["a"], []⟩, fun _ => "int64"⟩, none⟩] }

end PlotExample

open PlotExample EsExample in
example : drawEntitySet (fun _ => false) es3 =
    ⟨[("orders", "{orders (3 rows)|oid : index\\lcust : id\\lcity : categorical\\lt : datetime_time_index\\ln : categorical\\l}"),
      ("custs", "{custs (2 rows)|id : index\\lage : categorical\\l}")], [("orders", "custs", "id -> cust")]⟩ := by decide +kernel

open PlotExample EsExample in
example : PlainSet es3 ∧ PlainId "shop" ∧ NamesFormat formats "out/shop.v1.pdf" ∧ ¬ NamesFormat formats "out/shop" ∧
    plotEntitySet formats (fun _ => false) es3 (.text "out/shop.v1.pdf") = .ok (drawEntitySet (fun _ => false) es3, some "out/shop.v1.pdf") := by
  have h1 : NamesFormat formats "out/shop.v1.pdf" := ⟨"out/shop.v1", "pdf", by decide, by decide, by decide⟩
  refine ⟨⟨?_, ?_⟩, ?_, h1, fun h => absurd ((format_iff _ _).mpr h) (by decide +kernel), (C91_saved _ _ _ _ (by decide)).1 h1⟩
  · unfold PlainId; decide +kernel
  · unfold PlainId; decide +kernel
  · unfold PlainId; decide +kernel

/-- C91. An arrow to an entity with a colon in its name leads to a box of another name, for which there is none. -/
theorem C91_colon_violated : (drawEntitySet (fun _ => false) PlotExample.colonSet).boxes.map Prod.fst = ["orders", "shop:custs"] ∧
    (drawEntitySet (fun _ => false) PlotExample.colonSet).arrows = [("orders", "shop", "id -> cust")] := by decide +kernel

/-- C91. With other names different entity sets have the same picture. -/
theorem C91_names_violated : drawEntitySet (fun _ => false) (PlotExample.oneVar ["a", "b"]) =
      drawEntitySet (fun _ => false) (PlotExample.oneVar ["a : index\\lb"]) ∧
    (PlotExample.oneVar ["a", "b"]).entities.map (fun x => x.vars.length) ≠ (PlotExample.oneVar ["a : index\\lb"]).entities.map (fun x => x.vars.length) := by
  decide +kernel

end FT
