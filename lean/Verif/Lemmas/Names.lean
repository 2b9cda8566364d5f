import Verif.Spec.Names
import Std.Data.String.ToNat
/-!
# Reading a name back

A tree that stands for what a name says, the text of the tree, and the proof that the text determines the tree.
-/
namespace FT
namespace Reading

/-- Text up to the first character of a class is determined. -/
theorem split_unique {P : Char → Prop} {u u' s s' : List Char} (hu : ∀ c ∈ u, ¬ P c) (hu' : ∀ c ∈ u', ¬ P c)
    (hs : ∀ c r, s = c :: r → P c) (hs' : ∀ c r, s' = c :: r → P c) (h : u ++ s = u' ++ s') : u = u' ∧ s = s' := by
  induction u generalizing u' with
  | nil =>
    cases u' with
    | nil => exact ⟨rfl, h⟩
    | cons c u' => exact absurd (hs c (u' ++ s') h) (hu' c (by simp))
  | cons c u ih =>
    cases u' with
    | nil => exact absurd (hs' c (u ++ s) h.symm) (hu c (by simp))
    | cons c' u' =>
      simp only [List.cons_append, List.cons.injEq] at h
      obtain ⟨rfl, h⟩ := h
      obtain ⟨h1, h2⟩ := ih (fun c hc => hu c (by simp [hc])) (fun c hc => hu' c (by simp [hc])) h
      exact ⟨by rw [h1], h2⟩

/-- A word of a path: an entity, perhaps with the variable in brackets. -/
structure Part where
  word : List Char
  var : Option (List Char)
deriving DecidableEq

def Part.text (p : Part) : List Char := p.word ++ (match p.var with | none => [] | some v => '[' :: v ++ [']'])

def IsWord (w : List Char) : Prop := w ≠ [] ∧ ∀ c ∈ w, c ∉ Spec.specials
def IsPhrase (w : List Char) : Prop := ∀ c ∈ w, c ≠ ',' ∧ c ≠ ')'
def Part.Good (p : Part) : Prop := IsWord p.word ∧ ∀ v, p.var = some v → IsWord v

/-- Names (`word`, `dot`, `app`) and what follows the first input of an application (the others). -/
inductive Tree where
  | word (p : Part)
  | dot (p : Part) (rest : Tree)
  | app (fn : List Char) (first tail : Tree)
  | input (b tail : Tree)
  | cond (b : Tree) (value : Option (List Char)) (tail : Tree)
  | window (text : List Char) (tail : Tree)
  | arg (k v : List Char) (tail : Tree)
  | close (idx : Option Nat)
  | closeBy (idx : Option Nat) (g : Tree)

def idxText : Option Nat → List Char
  | none => []
  | some n => '[' :: (Nat.repr n).toList ++ [']']

def valueText : Option (List Char) → List Char
  | none => []
  | some v => [' ', '=', ' '] ++ v

def Tree.text : Tree → List Char
  | .word p => p.text
  | .dot p r => p.text ++ '.' :: r.text
  | .app fn f t => fn ++ '(' :: (f.text ++ t.text)
  | .input b t => ',' :: ' ' :: (b.text ++ t.text)
  | .cond b v t => ' ' :: 'W' :: 'H' :: 'E' :: 'R' :: 'E' :: ' ' :: (b.text ++ (valueText v ++ t.text))
  | .window w t => ',' :: ' ' :: 'L' :: 'a' :: 's' :: 't' :: ' ' :: (w ++ t.text)
  | .arg k v t => ',' :: ' ' :: (k ++ '=' :: (v ++ t.text))
  | .close i => ')' :: idxText i
  | .closeBy i g => ')' :: (idxText i ++ ' ' :: 'b' :: 'y' :: ' ' :: g.text)

/-- A rest that does not begin with a condition. -/
def Tree.NoCond : Tree → Prop
  | .cond .. => False
  | _ => True

/-- Well-formed names (`true`) and rests (`false`). -/
def Tree.Good : Bool → Tree → Prop
  | true, .word p => p.Good
  | true, .dot p r => p.Good ∧ r.Good true
  | true, .app fn f t => IsWord fn ∧ f.Good true ∧ t.Good false
  | false, .input b t => b.Good true ∧ t.Good false
  | false, .cond b v t => b.Good true ∧ (∀ x, v = some x → IsPhrase x) ∧ t.Good false ∧ t.NoCond
  | false, .window w t => IsPhrase w ∧ (∃ c r, w = c :: r ∧ (c.isDigit = true ∨ c = '-')) ∧ t.Good false ∧ t.NoCond
  | false, .arg k v t => IsWord k ∧ IsPhrase v ∧ t.Good false ∧ t.NoCond
  | false, .close _ => True
  | false, .closeBy _ g => g.Good true
  | _, _ => False

/-- What may come after a name. -/
def Follow (s : List Char) : Prop :=
  s = [] ∨ ∃ r, s = ')' :: r ∨ s = ',' :: r ∨ s = ' ' :: 'W' :: r ∨ s = ' ' :: '=' :: r

theorem Follow.head {s : List Char} (h : Follow s) {c : Char} {r : List Char} (e : s = c :: r) :
    c = ')' ∨ c = ',' ∨ (c = ' ' ∧ ∃ r', r = 'W' :: r' ∨ r = '=' :: r') := by
  rcases h with h | ⟨r', h | h | h | h⟩
  · rw [h] at e; cases e
  · rw [h] at e; cases e; exact .inl rfl
  · rw [h] at e; cases e; exact .inr (.inl rfl)
  · rw [h] at e; cases e; exact .inr (.inr ⟨rfl, r', .inl rfl⟩)
  · rw [h] at e; cases e; exact .inr (.inr ⟨rfl, r', .inr rfl⟩)

theorem Follow.special {s : List Char} (h : Follow s) : ∀ c r, s = c :: r → c ∈ Spec.specials := by
  intro c r e
  rcases h.head e with h | h | ⟨h, _⟩ <;> subst h <;> decide

/-- A rest begins with a closing parenthesis, a comma or a condition. -/
theorem Tree.Good.head {t : Tree} (h : t.Good false) :
    (∃ r, t.text = ')' :: r) ∨ (∃ r, t.text = ',' :: r) ∨ ((¬ t.NoCond) ∧ ∃ r, t.text = ' ' :: 'W' :: r) := by
  cases t <;> simp only [Tree.Good] at h
  · exact .inr (.inl ⟨_, rfl⟩)
  · exact .inr (.inr ⟨fun h => h, _, rfl⟩)
  · exact .inr (.inl ⟨_, rfl⟩)
  · exact .inr (.inl ⟨_, rfl⟩)
  · exact .inl ⟨_, rfl⟩
  · exact .inl ⟨_, rfl⟩

theorem Tree.Good.follow {t : Tree} (h : t.Good false) (s : List Char) : Follow (t.text ++ s) := by
  rcases h.head with ⟨r, h⟩ | ⟨r, h⟩ | ⟨_, r, h⟩ <;> rw [h]
  · exact .inr ⟨r ++ s, .inl rfl⟩
  · exact .inr ⟨r ++ s, .inr (.inl rfl)⟩
  · exact .inr ⟨r ++ s, .inr (.inr (.inl rfl))⟩

/-- After a phrase. -/
theorem Tree.Good.stop {t : Tree} (h : t.Good false) (hn : t.NoCond) (s : List Char) :
    ∀ c r, t.text ++ s = c :: r → c = ',' ∨ c = ')' := by
  intro c r e
  rcases h.head with ⟨r, h⟩ | ⟨r, h⟩ | ⟨h', _, _⟩
  · rw [h] at e; cases e; exact .inr rfl
  · rw [h] at e; cases e; exact .inl rfl
  · exact absurd hn h'

theorem phrase_unique {u u' s s' : List Char} (hu : IsPhrase u) (hu' : IsPhrase u')
    (hs : ∀ c r, s = c :: r → c = ',' ∨ c = ')') (hs' : ∀ c r, s' = c :: r → c = ',' ∨ c = ')') (h : u ++ s = u' ++ s') :
    u = u' ∧ s = s' :=
  split_unique (P := fun c => c = ',' ∨ c = ')') (fun c hc => by have := hu c hc; simp [this])
    (fun c hc => by have := hu' c hc; simp [this]) hs hs' h

theorem word_unique {u u' s s' : List Char} (hu : IsWord u) (hu' : IsWord u')
    (hs : ∀ c r, s = c :: r → c ∈ Spec.specials) (hs' : ∀ c r, s' = c :: r → c ∈ Spec.specials) (h : u ++ s = u' ++ s') :
    u = u' ∧ s = s' :=
  split_unique (P := fun c => c ∈ Spec.specials) (fun c hc => hu.2 c hc) (fun c hc => hu'.2 c hc) hs hs' h

theorem cons_special {d : Char} (hd : d ∈ Spec.specials) (l : List Char) :
    ∀ c r, d :: l = c :: r → c ∈ Spec.specials := by
  intro c r e; cases e; exact hd

/-- A name begins with a word, after which comes something special. -/
theorem Tree.Good.word_head {t : Tree} (h : t.Good true) {s : List Char} (hs : Follow s) :
    ∃ w r, IsWord w ∧ t.text ++ s = w ++ r ∧ (Follow r ∨ ∃ r', r = '[' :: r' ∨ r = '.' :: r' ∨ r = '(' :: r') := by
  cases t <;> simp only [Tree.Good] at h
  · rename_i p
    obtain ⟨w, v⟩ := p
    cases v with
    | none => exact ⟨w, s, h.1, by simp [Tree.text, Part.text], .inl hs⟩
    | some v => exact ⟨w, '[' :: (v ++ ']' :: s), h.1, by simp [Tree.text, Part.text], .inr ⟨_, .inl rfl⟩⟩
  · rename_i p rest
    obtain ⟨w, v⟩ := p
    cases v with
    | none => exact ⟨w, '.' :: (rest.text ++ s), h.1.1, by simp [Tree.text, Part.text], .inr ⟨_, .inr (.inl rfl)⟩⟩
    | some v =>
      exact ⟨w, '[' :: (v ++ ']' :: '.' :: (rest.text ++ s)), h.1.1, by simp [Tree.text, Part.text], .inr ⟨_, .inl rfl⟩⟩
  · rename_i fn f t
    exact ⟨fn, '(' :: (f.text ++ (t.text ++ s)), h.1, by simp [Tree.text], .inr ⟨_, .inr (.inr rfl)⟩⟩

theorem after_special {r : List Char} (h : Follow r ∨ ∃ r', r = '[' :: r' ∨ r = '.' :: r' ∨ r = '(' :: r') :
    ∀ c r', r = c :: r' → c ∈ Spec.specials := by
  intro c r' e
  rcases h with h | ⟨x, h | h | h⟩
  · exact h.special c r' e
  all_goals (rw [h] at e; cases e; decide)

/-- The brackets of a part are read back, before a following character that is no bracket. -/
theorem part_unique {p q : Part} {s t : List Char} (hp : p.Good) (hq : q.Good)
    (hs : ∀ c r, s = c :: r → c ∈ Spec.specials ∧ c ≠ '[') (ht : ∀ c r, t = c :: r → c ∈ Spec.specials ∧ c ≠ '[')
    (h : p.text ++ s = q.text ++ t) : p = q ∧ s = t := by
  obtain ⟨w, v⟩ := p
  obtain ⟨w', v'⟩ := q
  have hw : IsWord w := hp.1
  have hw' : IsWord w' := hq.1
  cases v with
  | none =>
    cases v' with
    | none =>
      simp only [Part.text, List.append_nil] at h
      replace h := word_unique hw hw' (fun c r e => (hs c r e).1) (fun c r e => (ht c r e).1) h
      obtain ⟨rfl, h⟩ := h
      exact ⟨rfl, h⟩
    | some v' =>
      simp only [Part.text, List.append_nil, List.append_assoc, List.cons_append] at h
      replace h := word_unique hw hw' (fun c r e => (hs c r e).1) (cons_special (by decide) _) h
      obtain ⟨rfl, h⟩ := h
      exact absurd rfl (hs _ _ h).2
  | some v =>
    cases v' with
    | none =>
      simp only [Part.text, List.append_nil, List.append_assoc, List.cons_append] at h
      replace h := word_unique hw hw' (cons_special (by decide) _) (fun c r e => (ht c r e).1) h
      obtain ⟨rfl, h⟩ := h
      exact absurd rfl (ht _ _ h.symm).2
    | some v' =>
      simp only [Part.text, List.append_assoc, List.cons_append, List.nil_append] at h
      replace h := word_unique hw hw' (cons_special (by decide) _) (cons_special (by decide) _) h
      obtain ⟨rfl, h⟩ := h
      simp only [List.cons.injEq, true_and] at h
      replace h := word_unique (hp.2 v rfl) (hq.2 v' rfl) (cons_special (by decide) _) (cons_special (by decide) _) h
      obtain ⟨rfl, h⟩ := h
      simp only [List.cons.injEq, true_and] at h
      exact ⟨rfl, h⟩

theorem repr_digits (n : Nat) : ∀ c ∈ (Nat.repr n).toList, c ≠ ']' := by
  intro c hc e
  subst e
  rw [Nat.toList_repr] at hc
  have := Nat.isDigit_of_mem_toDigits (by decide) (by decide) hc
  exact absurd this (by decide)

theorem repr_inj {m n : Nat} (h : (Nat.repr m).toList = (Nat.repr n).toList) : m = n := by
  have h := String.toList_inj.mp h
  have h1 := Nat.toNat?_repr m
  rw [h, Nat.toNat?_repr] at h1
  exact (Option.some.inj h1).symm

/-- After the closing parenthesis. -/
def Closing (s : List Char) : Prop := ∀ r, s ≠ '[' :: r

theorem idx_unique {i j : Option Nat} {s t : List Char} (hs : Closing s) (ht : Closing t)
    (h : idxText i ++ s = idxText j ++ t) : i = j ∧ s = t := by
  cases i with
  | none =>
    cases j with
    | none => exact ⟨rfl, by simpa [idxText] using h⟩
    | some n => simp only [idxText, List.nil_append, List.cons_append] at h; exact absurd h (hs _)
  | some m =>
    cases j with
    | none => simp only [idxText, List.nil_append, List.cons_append] at h; exact absurd h.symm (ht _)
    | some n =>
      simp only [idxText, List.cons_append, List.cons.injEq, true_and, List.append_assoc, List.nil_append] at h
      obtain ⟨h1, h2⟩ := split_unique (P := fun c => c = ']') (repr_digits m) (repr_digits n)
        (fun c r e => by cases e; rfl) (fun c r e => by cases e; rfl) h
      simp only [List.cons.injEq, true_and] at h2
      exact ⟨by rw [repr_inj h1], h2⟩

theorem Follow.closing {s : List Char} (h : Follow s) : Closing s := by
  intro r e
  rcases h.head e with h | h | ⟨h, _⟩ <;> cases h

theorem Follow.notBracket {s : List Char} (h : Follow s) : ∀ c r, s = c :: r → c ∈ Spec.specials ∧ c ≠ '[' :=
  fun c r e => ⟨h.special c r e, fun hc => h.closing r (by rw [e, hc])⟩

theorem dot_notBracket (l : List Char) : ∀ c r, '.' :: l = c :: r → c ∈ Spec.specials ∧ c ≠ '[' := by
  intro c r e; cases e; decide

theorem part_word {p : Part} (hp : p.Good) : ∃ r, p.text = p.word ++ r ∧ (r = [] ∨ ∃ r', r = '[' :: r') := by
  obtain ⟨w, v⟩ := p
  cases v with
  | none => exact ⟨[], rfl, .inl rfl⟩
  | some v => exact ⟨_, rfl, .inr ⟨_, rfl⟩⟩

/-- No application reads like a part. -/
theorem app_part {fn : List Char} {p : Part} {s t : List Char} (hf : IsWord fn) (hp : p.Good)
    (ht : ∀ c r, t = c :: r → c ∈ Spec.specials ∧ c ≠ '(') : fn ++ '(' :: s ≠ p.text ++ t := by
  intro h
  obtain ⟨r, hr, hr'⟩ := part_word hp
  rw [hr, List.append_assoc] at h
  have hspec : ∀ c r', r ++ t = c :: r' → c ∈ Spec.specials ∧ c ≠ '(' := by
    intro c r' e
    rcases hr' with rfl | ⟨x, rfl⟩
    · exact ht c r' e
    · cases e; decide
  obtain ⟨_, h⟩ := word_unique hf hp.1 (cons_special (by decide) _) (fun c r e => (hspec c r e).1) h
  exact (hspec _ _ h.symm).2 rfl

theorem Follow.notParen {s : List Char} (h : Follow s) : ∀ c r, s = c :: r → c ∈ Spec.specials ∧ c ≠ '(' := by
  intro c r e
  refine ⟨h.special c r e, ?_⟩
  rcases h.head e with h | h | ⟨h, _⟩ <;> subst h <;> decide

theorem dot_notParen (l : List Char) : ∀ c r, '.' :: l = c :: r → c ∈ Spec.specials ∧ c ≠ '(' := by
  intro c r e; cases e; decide

theorem word_last : IsWord ['L', 'a', 's', 't'] := by
  refine ⟨by simp, ?_⟩
  decide

/-- An input is no window. -/
theorem input_window {b : Tree} (hb : b.Good true) {s : List Char} (hs : Follow s) {w : List Char}
    (hw : ∃ c r, w = c :: r ∧ (c.isDigit = true ∨ c = '-')) (t : List Char) :
    b.text ++ s ≠ 'L' :: 'a' :: 's' :: 't' :: ' ' :: (w ++ t) := by
  intro h
  obtain ⟨u, r, hu, he, hr⟩ := hb.word_head hs
  rw [he, show 'L' :: 'a' :: 's' :: 't' :: ' ' :: (w ++ t) = ['L', 'a', 's', 't'] ++ ' ' :: (w ++ t) from rfl] at h
  obtain ⟨_, h⟩ := word_unique hu word_last (after_special hr) (cons_special (by decide) _) h
  obtain ⟨c, w', rfl, hc⟩ := hw
  rcases hr with hr | ⟨r', hr | hr | hr⟩
  · rcases hr.head h with h1 | h1 | ⟨_, r', h1 | h1⟩
    · cases h1
    · cases h1
    · simp only [List.cons_append, List.cons.injEq] at h1; rw [h1.1] at hc; revert hc; decide
    · simp only [List.cons_append, List.cons.injEq] at h1; rw [h1.1] at hc; revert hc; decide
  all_goals (rw [hr] at h; cases h)

/-- An input is no argument. -/
theorem input_arg {b : Tree} (hb : b.Good true) {s : List Char} (hs : Follow s) {k : List Char} (hk : IsWord k)
    (t : List Char) : b.text ++ s ≠ k ++ '=' :: t := by
  intro h
  obtain ⟨u, r, hu, he, hr⟩ := hb.word_head hs
  rw [he] at h
  obtain ⟨_, h⟩ := word_unique hu hk (after_special hr) (cons_special (by decide) _) h
  rcases hr with hr | ⟨r', hr | hr | hr⟩
  · rcases hr.head h with h1 | h1 | ⟨h1, _⟩ <;> cases h1
  all_goals (rw [hr] at h; cases h)

theorem window_arg {w k s t : List Char} (hk : IsWord k) :
    'L' :: 'a' :: 's' :: 't' :: ' ' :: (w ++ s) ≠ k ++ '=' :: t := by
  intro h
  rw [show 'L' :: 'a' :: 's' :: 't' :: ' ' :: (w ++ s) = ['L', 'a', 's', 't'] ++ ' ' :: (w ++ s) from rfl] at h
  obtain ⟨_, h⟩ := word_unique word_last hk (cons_special (by decide) _) (cons_special (by decide) _) h
  cases h

/-- After the closing parenthesis comes the end or a group. -/
theorem by_follow {s g : List Char} (hs : Follow s) : s ≠ ' ' :: 'b' :: g := by
  intro e
  rcases hs.head e with h | h | ⟨_, r', h | h⟩ <;> cases h

theorem by_closing (l : List Char) : Closing (' ' :: l) := by intro r e; cases e

theorem value_follow {v : Option (List Char)} {t : Tree} (ht : t.Good false) (s : List Char) :
    Follow (valueText v ++ t.text ++ s) := by
  cases v with
  | none => simpa [valueText] using ht.follow s
  | some v => exact .inr ⟨' ' :: (v ++ t.text ++ s), .inr (.inr (.inr (by simp [valueText])))⟩

/-- No rest begins with a blank and an equals sign. -/
theorem rest_value {t : Tree} (ht : t.Good false) (s r : List Char) : t.text ++ s ≠ ' ' :: '=' :: r := by
  intro e
  rcases ht.head with ⟨x, h⟩ | ⟨x, h⟩ | ⟨_, x, h⟩ <;> rw [h] at e <;> simp at e

/-- The text determines the tree and where it ends. -/
theorem text_unique (x : Tree) : ∀ (b : Bool) (y : Tree) (s t : List Char), x.Good b → y.Good b → Follow s → Follow t →
    x.text ++ s = y.text ++ t → x = y ∧ s = t := by
  induction x with
  | word p =>
    intro b y s t hx hy hs ht h
    cases b <;> simp only [Tree.Good] at hx
    cases y <;> simp only [Tree.Good] at hy <;> simp only [Tree.text, List.append_assoc, List.cons_append] at h
    · replace h := part_unique hx hy hs.notBracket ht.notBracket h
      obtain ⟨rfl, h⟩ := h
      exact ⟨rfl, h⟩
    · replace h := part_unique hx hy.1 hs.notBracket (dot_notBracket _) h
      obtain ⟨rfl, h⟩ := h
      rcases hs.head h with h | h | ⟨h, _⟩ <;> cases h
    · exact absurd h.symm (app_part hy.1 hx hs.notParen)
  | dot p r ih =>
    intro b y s t hx hy hs ht h
    cases b <;> simp only [Tree.Good] at hx
    cases y <;> simp only [Tree.Good] at hy <;> simp only [Tree.text, List.append_assoc, List.cons_append] at h
    · replace h := part_unique hx.1 hy (dot_notBracket _) ht.notBracket h
      obtain ⟨rfl, h⟩ := h
      rcases ht.head h.symm with h | h | ⟨h, _⟩ <;> cases h
    · replace h := part_unique hx.1 hy.1 (dot_notBracket _) (dot_notBracket _) h
      obtain ⟨rfl, h⟩ := h
      simp only [List.cons.injEq, true_and] at h
      replace h := ih true _ s t hx.2 hy.2 hs ht h
      obtain ⟨rfl, h⟩ := h
      exact ⟨rfl, h⟩
    · exact absurd h.symm (app_part hy.1 hx.1 (dot_notParen _))
  | app fn f t' ihf iht =>
    intro b y s t hx hy hs ht h
    cases b <;> simp only [Tree.Good] at hx
    cases y <;> simp only [Tree.Good] at hy <;> simp only [Tree.text, List.append_assoc, List.cons_append] at h
    · exact absurd h (app_part hx.1 hy ht.notParen)
    · exact absurd h (app_part hx.1 hy.1 (dot_notParen _))
    · replace h := word_unique hx.1 hy.1 (cons_special (by decide) _) (cons_special (by decide) _) h
      obtain ⟨rfl, h⟩ := h
      simp only [List.cons.injEq, true_and] at h
      replace h := ihf true _ _ _ hx.2.1 hy.2.1 (hx.2.2.follow s) (hy.2.2.follow t) h
      obtain ⟨rfl, h⟩ := h
      replace h := iht false _ s t hx.2.2 hy.2.2 hs ht h
      obtain ⟨rfl, h⟩ := h
      exact ⟨rfl, h⟩
  | input b' t' ihb iht =>
    intro b y s t hx hy hs ht h
    cases b <;> simp only [Tree.Good] at hx
    cases y <;> simp only [Tree.Good] at hy <;>
      simp only [Tree.text, List.append_assoc, List.cons_append, List.cons.injEq, true_and] at h
    · replace h := ihb true _ _ _ hx.1 hy.1 (hx.2.follow s) (hy.2.follow t) h
      obtain ⟨rfl, h⟩ := h
      replace h := iht false _ s t hx.2 hy.2 hs ht h
      obtain ⟨rfl, h⟩ := h
      exact ⟨rfl, h⟩
    · simp at h
    · exact absurd h (input_window hx.1 (hx.2.follow s) hy.2.1 _)
    · exact absurd h (input_arg hx.1 (hx.2.follow s) hy.1 _)
    · simp at h
    · simp at h
  | cond b' v t' ihb iht =>
    intro b y s t hx hy hs ht h
    cases b <;> simp only [Tree.Good] at hx
    cases y <;> simp only [Tree.Good] at hy <;>
      simp only [Tree.text, List.append_assoc, List.cons_append, List.cons.injEq, true_and] at h
    · simp at h
    · rename_i b2 v2 t2
      replace h := ihb true _ _ _ hx.1 hy.1 (by simpa using value_follow (v := v) hx.2.2.1 s)
        (by simpa using value_follow (v := v2) hy.2.2.1 t) h
      obtain ⟨rfl, h⟩ := h
      cases v with
      | none =>
        cases v2 with
        | none =>
          replace h := iht false _ s t hx.2.2.1 hy.2.2.1 hs ht (by simpa [valueText] using h)
          obtain ⟨rfl, h⟩ := h
          exact ⟨rfl, h⟩
        | some v2 => exact absurd (by simpa [valueText] using h) (rest_value hx.2.2.1 s _)
      | some v =>
        cases v2 with
        | none => exact absurd (by simpa [valueText] using h.symm) (rest_value hy.2.2.1 t _)
        | some v2 =>
          simp only [valueText, List.cons_append, List.nil_append, List.cons.injEq, true_and] at h
          replace h := phrase_unique (hx.2.1 v rfl) (hy.2.1 v2 rfl) (hx.2.2.1.stop hx.2.2.2 s)
            (hy.2.2.1.stop hy.2.2.2 t) h
          obtain ⟨rfl, h⟩ := h
          replace h := iht false _ s t hx.2.2.1 hy.2.2.1 hs ht h
          obtain ⟨rfl, h⟩ := h
          exact ⟨rfl, h⟩
    all_goals simp at h
  | window w t' iht =>
    intro b y s t hx hy hs ht h
    cases b <;> simp only [Tree.Good] at hx
    cases y <;> simp only [Tree.Good] at hy <;>
      simp only [Tree.text, List.append_assoc, List.cons_append, List.cons.injEq, true_and] at h
    · exact absurd h.symm (input_window hy.1 (hy.2.follow t) hx.2.1 _)
    · simp at h
    · replace h := phrase_unique hx.1 hy.1 (hx.2.2.1.stop hx.2.2.2 s) (hy.2.2.1.stop hy.2.2.2 t) h
      obtain ⟨rfl, h⟩ := h
      replace h := iht false _ s t hx.2.2.1 hy.2.2.1 hs ht h
      obtain ⟨rfl, h⟩ := h
      exact ⟨rfl, h⟩
    · exact absurd h (window_arg hy.1)
    · simp at h
    · simp at h
  | arg k v t' iht =>
    intro b y s t hx hy hs ht h
    cases b <;> simp only [Tree.Good] at hx
    cases y <;> simp only [Tree.Good] at hy <;>
      simp only [Tree.text, List.append_assoc, List.cons_append, List.cons.injEq, true_and] at h
    · exact absurd h.symm (input_arg hy.1 (hy.2.follow t) hx.1 _)
    · simp at h
    · exact absurd h.symm (window_arg hx.1)
    · replace h := word_unique hx.1 hy.1 (cons_special (by decide) _) (cons_special (by decide) _) h
      obtain ⟨rfl, h⟩ := h
      simp only [List.cons.injEq, true_and] at h
      replace h := phrase_unique hx.2.1 hy.2.1 (hx.2.2.1.stop hx.2.2.2 s) (hy.2.2.1.stop hy.2.2.2 t) h
      obtain ⟨rfl, h⟩ := h
      replace h := iht false _ s t hx.2.2.1 hy.2.2.1 hs ht h
      obtain ⟨rfl, h⟩ := h
      exact ⟨rfl, h⟩
    · simp at h
    · simp at h
  | close i =>
    intro b y s t hx hy hs ht h
    cases b <;> simp only [Tree.Good] at hx
    cases y <;> simp only [Tree.Good] at hy <;>
      simp only [Tree.text, List.append_assoc, List.cons_append, List.cons.injEq, true_and] at h
    · simp at h
    · simp at h
    · simp at h
    · simp at h
    · replace h := idx_unique hs.closing ht.closing h
      obtain ⟨rfl, h⟩ := h
      exact ⟨rfl, h⟩
    · replace h := idx_unique hs.closing (by_closing _) h
      obtain ⟨rfl, h⟩ := h
      exact absurd h (by_follow hs)
  | closeBy i g ih =>
    intro b y s t hx hy hs ht h
    cases b <;> simp only [Tree.Good] at hx
    cases y <;> simp only [Tree.Good] at hy <;>
      simp only [Tree.text, List.append_assoc, List.cons_append, List.cons.injEq, true_and] at h
    · simp at h
    · simp at h
    · simp at h
    · simp at h
    · replace h := idx_unique (by_closing _) ht.closing h
      obtain ⟨rfl, h⟩ := h
      exact absurd h.symm (by_follow ht)
    · replace h := idx_unique (by_closing _) (by_closing _) h
      obtain ⟨rfl, h⟩ := h
      simp only [List.cons.injEq, true_and] at h
      replace h := ih true _ s t hx hy hs ht h
      obtain ⟨rfl, h⟩ := h
      exact ⟨rfl, h⟩

end Reading
end FT
