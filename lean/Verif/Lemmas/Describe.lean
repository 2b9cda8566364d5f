import Verif.Spec.Describe
/-!
# Lemmas about descriptions
-/
namespace FT
open Spec

/-! ### Templates -/

section
variable {args : List (Option String)} {nth : Option String}

theorem pyFormat_open (num : FNum) (c : Char) (r : List Char) (h : c ≠ '{') :
    pyFormat args nth num none ('{' :: c :: r) = pyFormat args nth num (some []) (c :: r) := by
  rw [pyFormat]
  simpa using h

theorem pyFormat_braces (num : FNum) (r : List Char) :
    pyFormat args nth num none ('{' :: '{' :: r) = (pyFormat args nth num none r).map ('{' :: ·) := by
  rw [pyFormat]

theorem pyFormat_braces' (num : FNum) (r : List Char) :
    pyFormat args nth num none ('}' :: '}' :: r) = (pyFormat args nth num none r).map ('}' :: ·) := by
  rw [pyFormat]

theorem pyFormat_char (num : FNum) (c : Char) (r : List Char) (h : c ≠ '{') (h' : c ≠ '}') :
    pyFormat args nth num none (c :: r) = (pyFormat args nth num none r).map (c :: ·) := by
  rw [pyFormat]
  · intro r' e _; exact h e
  · exact h
  · intro r' e _; exact h' e
  · exact h'

theorem pyFormat_inside (num : FNum) : ∀ (ds field r : List Char), (∀ c ∈ ds, c ≠ '}') →
    pyFormat args nth num (some field) (ds ++ '}' :: r) = pyFormat args nth num (some (field ++ ds)) ('}' :: r)
  | [], field, r, _ => by simp
  | c :: ds, field, r, h => by
    have e : pyFormat args nth num (some field) (c :: (ds ++ '}' :: r)) = pyFormat args nth num (some (field ++ [c])) (ds ++ '}' :: r) := by
      rw [pyFormat]
      exact h c (by simp)
    rw [List.cons_append, e, pyFormat_inside num ds (field ++ [c]) r (fun x hx => h x (by simp [hx]))]
    simp

theorem pyFormat_close (num : FNum) (field r : List Char) : pyFormat args nth num (some field) ('}' :: r) =
    match fieldValue args nth num field with
    | .error e => .error e
    | .ok (s, num') => (pyFormat args nth num' none r).map (s.toList ++ ·) := by
  rw [pyFormat]
  cases fieldValue args nth num field with
  | error e => rfl
  | ok x => rfl

theorem digits_foldl {ds : List Char} {n : Nat} (h : Digits ds n) : ds.foldl (fun a c => 10 * a + (c.toNat - 48)) 0 = n := by
  induction h with
  | nil => rfl
  | snoc c _ ih => rw [List.foldl_append, ih]; rfl

end

/-- The numbering fits the rest of the template. -/
def NumFits (num : FNum) (k : Nat) (ps : List Piece) : Prop :=
  ((∀ p ∈ ps, p ≠ .next) ∧ ∀ j, num ≠ .auto j) ∨ ((∀ p ∈ ps, ∀ ds, p ≠ .at ds) ∧ (num = .auto k ∨ (num = .unused ∧ k = 0)))

theorem numFits_tail {num : FNum} {k : Nat} {p : Piece} {ps : List Piece} (h : NumFits num k (p :: ps)) : NumFits num k ps := by
  rcases h with ⟨h, h'⟩ | ⟨h, h'⟩
  · exact .inl ⟨fun q hq => h q (by simp [hq]), h'⟩
  · exact .inr ⟨fun q hq => h q (by simp [hq]), h'⟩

theorem pyFormat_filled {args : List String} {nth : Option String} {k : Nat} {ps : List Piece} {s : List Char}
    (h : Filled args nth k ps s) : ∀ num, NumFits num k ps → (∀ ds, Piece.at ds ∈ ps → ds ≠ [] ∧ ∀ c ∈ ds, c.isDigit = true) →
    pyFormat (args.map some) nth num none (source ps) = .ok s := by
  induction h with
  | nil k => intro num _ _; simp [source, pyFormat]
  | @char k ps s c _ ih =>
    intro num hn hd
    have ih := ih num (numFits_tail hn) (fun ds h => hd ds (by simp [h]))
    simp only [source, List.flatMap_cons] at ih ⊢
    by_cases h1 : c = '{'
    · have e : Piece.source (.char c) = ['{', '{'] := by rw [Piece.source, if_pos h1]
      rw [e, List.cons_append, List.cons_append, List.nil_append, pyFormat_braces, ih, h1]; rfl
    · by_cases h2 : c = '}'
      · have e : Piece.source (.char c) = ['}', '}'] := by rw [Piece.source, if_neg h1, if_pos h2]
        rw [e, List.cons_append, List.cons_append, List.nil_append, pyFormat_braces', ih, h2]; rfl
      · simp only [Piece.source, if_neg h1, if_neg h2, List.cons_append, List.nil_append]
        rw [pyFormat_char _ _ _ h1 h2, ih]; rfl
  | @next k ps s a ha _ ih =>
    intro num hn hd
    have hd' : ∀ ds, Piece.at ds ∈ ps → ds ≠ [] ∧ ∀ c ∈ ds, c.isDigit = true := fun ds h => hd ds (by simp [h])
    simp only [source, List.flatMap_cons, Piece.source, List.cons_append, List.nil_append] at ih ⊢
    rw [pyFormat_open _ _ _ (by decide), pyFormat_close]
    rcases hn with ⟨h, _⟩ | ⟨h, h'⟩
    · exact absurd rfl (h .next (by simp))
    · have hps : ∀ p ∈ ps, ∀ ds, p ≠ .at ds := fun q hq => h q (by simp [hq])
      have hv : fieldValue (args.map some) nth num [] = .ok (a, .auto (k + 1)) := by
        rcases h' with rfl | ⟨rfl, rfl⟩
        · simp [fieldValue, ha, argText]
        · simp [fieldValue, ha, argText]
      rw [hv]
      show (pyFormat _ _ (.auto (k + 1)) none _).map _ = _
      rw [ih (.auto (k + 1)) (.inr ⟨hps, .inl rfl⟩) hd']; rfl
  | @«at» k ps s ds n a hds ha _ ih =>
    intro num hn hd
    obtain ⟨hne, hdig⟩ := hd ds (by simp)
    have hd' : ∀ ds, Piece.at ds ∈ ps → ds ≠ [] ∧ ∀ c ∈ ds, c.isDigit = true := fun ds h => hd ds (by simp [h])
    simp only [source, List.flatMap_cons, Piece.source, List.cons_append, List.append_assoc, List.nil_append] at ih ⊢
    rcases hn with ⟨h, h'⟩ | ⟨h, _⟩
    · have hps : ∀ p ∈ ps, p ≠ Piece.next := fun q hq => h q (by simp [hq])
      have hbr : ∀ c ∈ ds, c ≠ '}' := by
        rintro c hc rfl
        have := hdig _ hc
        revert this; decide
      have hop : ∀ r, pyFormat (args.map some) nth num none ('{' :: (ds ++ '}' :: r)) =
          pyFormat (args.map some) nth num (some []) (ds ++ '}' :: r) := by
        intro r
        cases ds with
        | nil => exact absurd rfl hne
        | cons c ds =>
          refine pyFormat_open num c _ ?_
          rintro rfl
          have := hdig '{' (by simp)
          revert this; decide
      rw [hop, pyFormat_inside num ds [] _ hbr, List.nil_append, pyFormat_close]
      have hv : fieldValue (args.map some) nth num ds = .ok (a, .manual) := by
        unfold fieldValue
        rw [if_neg hne, if_pos (by simpa using hdig), digits_foldl hds]
        cases num with
        | auto j => exact absurd rfl (h' j)
        | unused => simp [ha, argText]
        | manual => simp [ha, argText]
      rw [hv]
      show (pyFormat _ _ .manual none _).map _ = _
      rw [ih .manual (.inl ⟨hps, fun j e => by cases e⟩) hd']; rfl
    · exact absurd rfl (h (.at ds) (by simp) ds)
  | @nth k ps s a hnth _ ih =>
    intro num hn hd
    have hd' : ∀ ds, Piece.at ds ∈ ps → ds ≠ [] ∧ ∀ c ∈ ds, c.isDigit = true := fun ds h => hd ds (by simp [h])
    have hsrc : Piece.source .nth = '{' :: (['n', 't', 'h', '_', 's', 'l', 'i', 'c', 'e'] ++ ['}']) := by
      simp [Piece.source]
    simp only [source, List.flatMap_cons, hsrc, List.cons_append, List.append_assoc, List.nil_append] at ih ⊢
    rw [pyFormat_open _ _ _ (by decide)]
    have := pyFormat_inside (args := args.map some) (nth := nth) num ['n', 't', 'h', '_', 's', 'l', 'i', 'c', 'e'] []
      (List.flatMap Piece.source ps) (by decide)
    simp only [List.cons_append, List.nil_append] at this
    rw [this, pyFormat_close]
    have hv : fieldValue (args.map some) nth num ['n', 't', 'h', '_', 's', 'l', 'i', 'c', 'e'] = .ok (a, num) := by
      unfold fieldValue
      rw [if_neg (by decide), if_neg (by decide), if_neg (by decide), if_pos rfl, hnth]
    rw [hv]
    show (pyFormat _ _ num none _).map _ = _
    rw [ih num (numFits_tail hn) hd']; rfl

theorem format_gives {t : List Char} {args : List String} {nth : Option String} {s : String} (h : Gives t args nth s) :
    format t (args.map some) nth = .ok s := by
  obtain ⟨ps, ⟨hw, hd⟩, rfl, hf⟩ := h
  unfold format
  rw [pyFormat_filled hf .unused (by
    rcases hw with hw | hw
    · exact .inl ⟨hw, fun j e => by cases e⟩
    · exact .inr ⟨hw, .inr ⟨rfl, rfl⟩⟩) hd]
  simp [Except.map]

/-! ### Primitives -/

theorem truthy_real {t : List Char ⊕ List (List Char)} (h : RealTemplate t) : truthyTemplate (some t) = some t := by
  unfold truthyTemplate
  split
  · rename_i h'; cases h'; exact absurd rfl h.1
  · rename_i h'; cases h'; exact absurd rfl h.2
  · rfl

theorem template_used {C : GCustom} {p : GPrim} {t : List Char ⊕ List (List Char)} (h : TemplateOf C p t) (hr : RealTemplate t) :
    (truthyTemplate (templateFor C p)).or (truthyTemplate p.template) = some t := by
  cases h with
  | prim h => simp [templateFor, h, truthy_real hr]
  | name h1 h2 h3 => simp [templateFor, h1, h2, h3, truthy_real hr]
  | own h1 h2 h3 =>
    have : templateFor C p = none := by
      simp only [templateFor, h1]
      cases hn : p.name with
      | none => rfl
      | some n => exact h2 n hn
    rw [this, h3, truthy_real hr]; rfl

theorem no_template {C : GCustom} {p : GPrim} (h : NoTemplate C p) :
    (truthyTemplate (templateFor C p)).or (truthyTemplate p.template) = none := by
  have : templateFor C p = none := by
    simp only [templateFor, h.1]
    cases hn : p.name with
    | none => rfl
    | some n => exact h.2.1 n hn
  rw [this, h.2.2]; rfl

theorem joinComma_some (l : List String) : joinComma (l.map some) = .ok (", ".intercalate l) := by
  have : (l.map some).mapM needText = Except.ok l := by
    induction l with
    | nil => rfl
    | cons a l ih => rw [List.map_cons, List.mapM_cons, ih]; rfl
  simp [joinComma, this, Except.map]

theorem primDescription_says {upper : String → String} {C : GCustom} {p : GPrim} {slice : Option Nat} {inputs : List String} {s : String}
    (h : Says upper C p slice inputs s) : primDescription upper p (inputs.map some) slice (templateFor C p) = .ok s := by
  unfold primDescription
  cases h with
  | text ht hr hg => rw [template_used ht hr]; exact format_gives hg
  | textOutput n ht hr hg => rw [template_used ht hr]; exact format_gives hg
  | whole ht hg =>
    rw [template_used ht ⟨by simp, by simp⟩]
    simpa using format_gives hg
  | @output t ts u inputs s n ht hu hg =>
    rw [template_used ht ⟨by simp, by simp⟩]
    have hlt : n < ts.length := (List.getElem?_eq_some_iff.mp hu).1
    simp only [List.length_cons, Nat.add_lt_add_iff_right, hlt, if_true, List.getElem?_cons_succ, hu]
    exact format_gives hg
  | @anyOutput t u inputs s n ht hg =>
    rw [template_used ht ⟨by simp, by simp⟩]
    have hg := format_gives hg
    cases n with
    | zero => simpa using hg
    | succ n =>
      have : ¬ n + 1 + 1 < 2 := by omega
      simpa [this] using hg
  | generic ht hc =>
    rw [no_template ht]
    simp only [joinComma_some, Except.map]
    rcases hc with ⟨n, hn, rfl⟩ | ⟨hn, rfl⟩ <;> simp [hn]
  | genericOutput n ht hc =>
    rw [no_template ht]
    simp only [joinComma_some, Except.map]
    rcases hc with ⟨m, hn, rfl⟩ | ⟨hn, rfl⟩ <;> simp [hn]

end FT
