import Verif.Spec.VarTypes
/-! Lemmas about variable types and their names. -/
namespace FT
open Spec

theorem upperCh_iff {c : Char} : upperCh c = true ↔ CapitalLetter c := by simp [upperCh, CapitalLetter]
theorem lowerCh_iff {c : Char} : lowerCh c = true ↔ SmallLetter c := by simp [lowerCh, SmallLetter]
theorem lowerNumCh_iff {c : Char} : lowerNumCh c = true ↔ SmallLetter c ∨ DigitChar c := by
  simp [lowerNumCh, lowerCh, SmallLetter, DigitChar]

theorem char_le_nat {a b : Char} : a ≤ b ↔ a.toNat ≤ b.toNat := by
  rw [Char.le_def, UInt32.le_iff_toNat_le]; rfl

theorem capital_nat {c : Char} : CapitalLetter c ↔ 65 ≤ c.toNat ∧ c.toNat ≤ 90 := by
  unfold CapitalLetter; rw [char_le_nat, char_le_nat]; exact Iff.rfl
theorem small_nat {c : Char} : SmallLetter c ↔ 97 ≤ c.toNat ∧ c.toNat ≤ 122 := by
  unfold SmallLetter; rw [char_le_nat, char_le_nat]; exact Iff.rfl
theorem digit_nat {c : Char} : DigitChar c ↔ 48 ≤ c.toNat ∧ c.toNat ≤ 57 := by
  unfold DigitChar; rw [char_le_nat, char_le_nat]; exact Iff.rfl

theorem not_lowerNum_of_upper {c : Char} (h : upperCh c = true) : lowerNumCh c = false := by
  rw [upperCh_iff, capital_nat] at h
  cases e : lowerNumCh c with
  | false => rfl
  | true =>
    rw [lowerNumCh_iff, small_nat, digit_nat] at e
    omega

theorem not_upper_of_lower {c : Char} (h : lowerCh c = true) : upperCh c = false := by
  cases e : upperCh c with
  | false => rfl
  | true =>
    have := not_lowerNum_of_upper e
    simp [lowerNumCh, h] at this

theorem lowerNum_of_lower {c : Char} (h : lowerCh c = true) : lowerNumCh c = true := by simp [lowerNumCh, h]

/-- The underscores, in one pass. -/
def insAfter : Char → List Char → List Char
  | _, [] => []
  | p, c :: s =>
    if upperCh c && (lowerNumCh p || (s.head?.map lowerCh).getD false) then '_' :: c :: insAfter c s else c :: insAfter c s

theorem subUpper_cons {c : Char} (h : lowerNumCh c = false) (x : List Char) : subUpper (c :: x) = c :: subUpper x := by
  cases x with
  | nil => rfl
  | cons u x => simp [subUpper, h]

theorem subWord_true {c : Char} (h : lowerCh c = false) (s : List Char) : subWord true (c :: s) = subWord false (c :: s) := by
  cases s with
  | nil => simp [subWord]
  | cons u s =>
    cases s with
    | nil => simp [subWord]
    | cons l t => simp [subWord, h]

theorem subWord_lower {c : Char} (h : lowerCh c = true) (s : List Char) : subWord true (c :: s) = c :: subWord true s := by
  match s with
  | [] => simp [subWord]
  | [u] => simp [subWord, h]
  | u :: l :: t => simp [subWord, h]

theorem subWord_head (c : Char) (s : List Char) : ∃ x, subWord false (c :: s) = c :: x := by
  cases s with
  | nil => exact ⟨[], by simp [subWord]⟩
  | cons u s =>
    cases s with
    | nil => exact ⟨[u], by simp [subWord]⟩
    | cons l t =>
      simp only [subWord]
      split
      · exact ⟨_, rfl⟩
      · exact ⟨_, rfl⟩

theorem subUpper_two (p c : Char) (x : List Char) :
    subUpper (p :: c :: x) = if lowerNumCh p && upperCh c then p :: '_' :: c :: subUpper x else p :: subUpper (c :: x) := by
  simp [subUpper]

theorem passes (n : Nat) :
    (∀ c s, s.length ≤ n → subUpper (subWord false (c :: s)) = c :: insAfter c s) ∧
    (∀ l t, lowerCh l = true → t.length ≤ n → subUpper (l :: subWord true t) = l :: insAfter l t) := by
  induction n with
  | zero =>
    constructor
    · intro c s hs
      obtain rfl : s = [] := List.eq_nil_of_length_eq_zero (by omega)
      simp [subWord, subUpper, insAfter]
    · intro l t _ ht
      obtain rfl : t = [] := List.eq_nil_of_length_eq_zero (by omega)
      simp [subWord, subUpper, insAfter]
  | succ n ih =>
    have A : ∀ c s, s.length ≤ n + 1 → subUpper (subWord false (c :: s)) = c :: insAfter c s := by
      intro c s hs
      match s with
      | [] => simp [subWord, subUpper, insAfter]
      | [u] =>
        simp only [subWord, insAfter, List.head?_nil, Option.map_none, Option.getD_none, Bool.or_false, subUpper_two]
        rw [Bool.and_comm]
        split <;> simp [subUpper]
      | u :: l :: t =>
        simp only [List.length_cons] at hs
        simp only [subWord]
        by_cases h : (upperCh u && lowerCh l) = true
        · rw [if_pos h]
          simp only [Bool.and_eq_true] at h
          have h1 : upperCh '_' = false := by decide
          have h2 : lowerNumCh '_' = false := by decide
          rw [subUpper_two, h1, Bool.and_false, if_neg (by simp), subUpper_cons h2, subUpper_cons (not_lowerNum_of_upper h.1),
            ih.2 l t h.2 (by omega)]
          simp [insAfter, h.1, h.2, not_upper_of_lower h.2]
        · rw [if_neg h]
          obtain ⟨x, hx⟩ := subWord_head u (l :: t)
          have hA := ih.1 u (l :: t) (by simp only [List.length_cons]; omega)
          rw [hx] at hA ⊢
          rw [subUpper_two]
          by_cases hc : (lowerNumCh c && upperCh u) = true
          · rw [if_pos hc]
            simp only [Bool.and_eq_true] at hc
            rw [subUpper_cons (not_lowerNum_of_upper hc.2)] at hA
            rw [insAfter, hc.1, hc.2]
            simp only [Bool.true_or, Bool.and_self, if_true]
            rw [List.cons.inj hA |>.2]
          · have hno : ¬(upperCh u && (lowerNumCh c || ((l :: t).head?.map lowerCh).getD false)) = true := by
              simp only [List.head?_cons, Option.map_some, Option.getD_some, Bool.and_eq_true, Bool.or_eq_true] at h hc ⊢
              rintro ⟨h1, h2 | h2⟩
              · exact hc ⟨h2, h1⟩
              · exact h ⟨h1, h2⟩
            rw [if_neg hc, hA]
            conv => rhs; rw [insAfter, if_neg hno]
    refine ⟨A, ?_⟩
    intro l t hl ht
    match t with
    | [] => simp [subWord, subUpper, insAfter]
    | c :: s =>
      simp only [List.length_cons] at ht
      by_cases hc : lowerCh c = true
      · rw [subWord_lower hc, subUpper_two, not_upper_of_lower hc, Bool.and_false,
          if_neg (by simp), ih.2 c s hc (by omega)]
        conv => rhs; rw [insAfter, not_upper_of_lower hc, Bool.false_and, if_neg (by simp)]
      · rw [subWord_true (by simpa using hc)]
        obtain ⟨x, hx⟩ := subWord_head c s
        have hA := A c s (by omega)
        rw [hx] at hA ⊢
        rw [subUpper_two, lowerNum_of_lower hl, Bool.true_and, insAfter, lowerNum_of_lower hl, Bool.true_or, Bool.and_true]
        by_cases hu : upperCh c = true
        · rw [if_pos hu, if_pos hu]
          rw [subUpper_cons (not_lowerNum_of_upper hu)] at hA
          rw [List.cons.inj hA |>.2]
        · rw [if_neg hu, if_neg hu, hA]

theorem insAfter_snake (p : Char) (s : List Char) (t : List Char) : (insAfter p s).map Char.toLower = t ↔ SnakeAfter p s t := by
  induction s generalizing p t with
  | nil =>
    constructor
    · intro h; cases h; exact .nil
    · intro h; cases h; rfl
  | cons c s ih =>
    have hb : (upperCh c && (lowerNumCh p || (s.head?.map lowerCh).getD false)) = true ↔ WordStarts p c s.head? := by
      rw [Bool.and_eq_true, Bool.or_eq_true, upperCh_iff, lowerNumCh_iff, WordStarts]
      have : (s.head?.map lowerCh).getD false = true ↔ ∃ n, s.head? = some n ∧ SmallLetter n := by
        cases s.head? with
        | none => simp
        | some n => simp [lowerCh_iff]
      rw [this]
      constructor
      · rintro ⟨h1, h2 | h2⟩
        · exact ⟨h1, Or.inr h2⟩
        · exact ⟨h1, Or.inl h2⟩
      · rintro ⟨h1, h2 | h2⟩
        · exact ⟨h1, Or.inr h2⟩
        · exact ⟨h1, Or.inl h2⟩
    rw [insAfter]
    by_cases h : (upperCh c && (lowerNumCh p || (s.head?.map lowerCh).getD false)) = true
    · rw [if_pos h]
      simp only [List.map_cons, show Char.toLower '_' = '_' from by decide]
      constructor
      · rintro rfl; exact .word (hb.mp h) ((ih c _).mp rfl)
      · intro hs
        cases hs with
        | word _ h2 => rw [(ih c _).mpr h2]
        | same h1 _ => exact absurd (hb.mp h) h1
    · rw [if_neg h]
      simp only [List.map_cons]
      constructor
      · rintro rfl; exact .same (fun h' => h (hb.mpr h')) ((ih c _).mp rfl)
      · intro hs
        cases hs with
        | word h1 _ => exact absurd (hb.mpr h1) h
        | same _ h2 => rw [(ih c _).mpr h2]

theorem camelToSnake_iff (s t : List Char) : camelToSnake s = t ↔ Snake s t := by
  cases s with
  | nil =>
    constructor
    · rintro rfl; exact .nil
    · intro h; cases h; rfl
  | cons c s =>
    unfold camelToSnake
    rw [(passes s.length).1 c s (Nat.le_refl _), List.map_cons]
    constructor
    · rintro rfl; exact .cons ((insAfter_snake c s _).mp rfl)
    · intro h
      cases h with
      | cons h => rw [(insAfter_snake c s _).mpr h]

/-! ## Camel case -/

theorem toLower_nat (c : Char) : c.toLower.toNat = if 65 ≤ c.toNat ∧ c.toNat ≤ 90 then c.toNat + 32 else c.toNat := by
  by_cases h : 65 ≤ c.toNat ∧ c.toNat ≤ 90
  · rw [if_pos h]
    obtain ⟨h1, h2⟩ := h
    unfold Char.toLower
    have : c.val ≥ 'A'.val ∧ c.val ≤ 'Z'.val := by
      constructor
      · rw [ge_iff_le, UInt32.le_iff_toNat_le]; exact h1
      · rw [UInt32.le_iff_toNat_le]; exact h2
    rw [dif_pos this]
    show (c.val + 32).toNat = _
    rw [UInt32.toNat_add]
    have : c.val.toNat = c.toNat := rfl
    rw [this]
    show (c.toNat + 32) % 4294967296 = c.toNat + 32
    omega
  · rw [if_neg h]
    unfold Char.toLower
    rw [dif_neg]
    rintro ⟨h1, h2⟩
    apply h
    rw [ge_iff_le, UInt32.le_iff_toNat_le] at h1
    rw [UInt32.le_iff_toNat_le] at h2
    exact ⟨h1, h2⟩

theorem char_eq_of_nat {a b : Char} (h : a.toNat = b.toNat) : a = b := by
  apply Char.ext
  exact UInt32.toNat_inj.mp h

/-- What follows a character in camel case. -/
theorem camel_step {p : Char} {s s' t : List Char}
    (hp : CapitalLetter p ∨ SmallLetter p ∨ DigitChar p)
    (h1 : ∀ c ∈ s, CapitalLetter c ∨ SmallLetter c ∨ DigitChar c) (h1' : ∀ c ∈ s', CapitalLetter c ∨ SmallLetter c ∨ DigitChar c)
    (h2 : ∀ (i : Nat) c d, (p :: s)[i]? = some c → (p :: s)[i + 1]? = some d → ¬(CapitalLetter c ∧ CapitalLetter d))
    (h2' : ∀ (i : Nat) c d, (p :: s')[i]? = some c → (p :: s')[i + 1]? = some d → ¬(CapitalLetter c ∧ CapitalLetter d))
    (h : SnakeAfter p s t) (h' : SnakeAfter p s' t) : s = s' := by
  induction s generalizing p s' t with
  | nil => cases h; cases h'; rfl
  | cons c s ih =>
    have hcap : ∀ {x : Char} {r : List Char}, (∀ (i : Nat) c d, (p :: x :: r)[i]? = some c → (p :: x :: r)[i + 1]? = some d →
        ¬(CapitalLetter c ∧ CapitalLetter d)) → (WordStarts p x r.head? ↔ CapitalLetter x) := by
      intro x r hn
      refine ⟨fun h => h.1, fun h => ⟨h, ?_⟩⟩
      have := hn 0 p x rfl rfl
      rcases hp with hp | hp | hp
      · exact absurd ⟨hp, h⟩ this
      · exact Or.inr (Or.inl hp)
      · exact Or.inr (Or.inr hp)
    have hnext : ∀ {x : Char} {r : List Char}, (∀ (i : Nat) c d, (p :: x :: r)[i]? = some c → (p :: x :: r)[i + 1]? = some d →
        ¬(CapitalLetter c ∧ CapitalLetter d)) → ∀ (i : Nat) c d, (x :: r)[i]? = some c → (x :: r)[i + 1]? = some d →
        ¬(CapitalLetter c ∧ CapitalLetter d) := fun hn i c d hc hd => hn (i + 1) c d hc hd
    cases s' with
    | nil => cases h' ; cases h
    | cons c' s' =>
      have key : ∀ {t : List Char}, c = c' → SnakeAfter c s t → SnakeAfter c' s' t → c :: s = c' :: s' := by
        rintro t rfl a b
        rw [ih (h1 c List.mem_cons_self) (fun x hx => h1 x (List.mem_cons_of_mem _ hx)) (fun x hx => h1' x (List.mem_cons_of_mem _ hx))
          (hnext h2) (hnext h2') a b]
      have hund : ∀ {x : Char}, (CapitalLetter x ∨ SmallLetter x ∨ DigitChar x) → x.toLower ≠ '_' := by
        intro x hx e
        have := congrArg Char.toNat e
        rw [toLower_nat, capital_nat, small_nat, digit_nat] at *
        have e2 : '_'.toNat = 95 := rfl
        rw [e2] at this
        split at this <;> omega
      have c1 := h1 c List.mem_cons_self
      have c1' := h1' c' List.mem_cons_self
      generalize ht : t = t0 at h'
      cases h with
      | word a b =>
        cases h' with
        | word a' b' =>
          simp only [List.cons.injEq, true_and] at ht
          obtain ⟨e1, rfl⟩ := ht
          refine key ?_ b b'
          have := congrArg Char.toNat e1
          rw [toLower_nat, toLower_nat] at this
          have d1 := capital_nat.mp a.1
          have d2 := capital_nat.mp a'.1
          rw [if_pos d1, if_pos d2] at this
          exact char_eq_of_nat (by omega)
        | same a' b' =>
          simp only [List.cons.injEq] at ht
          exact absurd ht.1.symm (hund c1')
      | same a b =>
        cases h' with
        | word a' b' =>
          simp only [List.cons.injEq] at ht
          exact absurd ht.1 (hund c1)
        | same a' b' =>
          simp only [List.cons.injEq] at ht
          obtain ⟨e1, rfl⟩ := ht
          refine key ?_ b b'
          have := congrArg Char.toNat e1
          rw [toLower_nat, toLower_nat] at this
          have d1 : ¬_ := fun x => a ((hcap h2).mpr (capital_nat.mpr x))
          have d2 : ¬_ := fun x => a' ((hcap h2').mpr (capital_nat.mpr x))
          rw [if_neg d1, if_neg d2] at this
          exact char_eq_of_nat this

/-! ## The dict of types -/

mutual
theorem mem_walk : ∀ (t : VTree) (c : VClass), c ∈ t.walk ↔ VBelow t c
  | .node a subs, c => by
    rw [VTree.walk, List.mem_cons, mem_walkL subs c]
    constructor
    · rintro (rfl | ⟨t, ht, h⟩)
      · exact .top
      · exact .sub ht h
    · intro h
      cases h with
      | top => exact Or.inl rfl
      | sub ht h => exact Or.inr ⟨_, ht, h⟩
theorem mem_walkL : ∀ (ts : List VTree) (c : VClass), c ∈ VTree.walkL ts ↔ ∃ t ∈ ts, VBelow t c
  | [], c => by simp [VTree.walkL]
  | t :: ts, c => by
    rw [VTree.walkL, List.mem_append, mem_walk t c, mem_walkL ts c]
    simp
end

theorem lookup_putKey {β : Type} (k s : String) (v : β) (d : List (String × β)) :
    (putKey k v d).lookup s = if s = k then some v else d.lookup s := by
  induction d with
  | nil =>
    simp only [putKey, List.lookup_cons]
    by_cases h : s = k
    · simp [h]
    · simp [h, beq_false_of_ne h]
  | cons p d ih =>
    obtain ⟨k', v'⟩ := p
    simp only [putKey]
    by_cases hk : k' = k
    · rw [if_pos hk]
      subst hk
      simp only [List.lookup_cons]
      by_cases h : s = k'
      · simp [h]
      · simp [h, beq_false_of_ne h]
    · rw [if_neg hk]
      simp only [List.lookup_cons, ih]
      by_cases h : s = k'
      · subst h
        simp [hk]
      · simp [beq_false_of_ne h]

theorem putKey_keys {β : Type} (k : String) (v : β) (d : List (String × β)) :
    ∀ x, x ∈ (putKey k v d).map Prod.fst ↔ x = k ∨ x ∈ d.map Prod.fst := by
  intro x
  induction d with
  | nil => simp [putKey]
  | cons p d ih =>
    obtain ⟨k', v'⟩ := p
    simp only [putKey]
    by_cases hk : k' = k
    · rw [if_pos hk]; subst hk; simp
    · rw [if_neg hk]
      simp only [List.map_cons, List.mem_cons, ih]
      constructor
      · rintro (h | h | h)
        · exact Or.inr (Or.inl h)
        · exact Or.inl h
        · exact Or.inr (Or.inr h)
      · rintro (h | h | h)
        · exact Or.inr (Or.inl h)
        · exact Or.inl h
        · exact Or.inr (Or.inr h)

theorem putKey_nodup {β : Type} (k : String) (v : β) (d : List (String × β)) (h : (d.map Prod.fst).Nodup) :
    ((putKey k v d).map Prod.fst).Nodup := by
  induction d with
  | nil => simp [putKey]
  | cons p d ih =>
    obtain ⟨k', v'⟩ := p
    simp only [List.map_cons, List.nodup_cons] at h
    simp only [putKey]
    by_cases hk : k' = k
    · rw [if_pos hk]; subst hk; simpa using h
    · rw [if_neg hk]
      simp only [List.map_cons, List.nodup_cons, putKey_keys, not_or]
      exact ⟨⟨hk, h.1⟩, ih h.2⟩

theorem foldl_putKey_nodup (l : List VClass) (d : List (String × VClass)) (h : (d.map Prod.fst).Nodup) :
    ((l.foldl (fun d c => putKey c.typeString c d) d).map Prod.fst).Nodup := by
  induction l generalizing d with
  | nil => exact h
  | cons c l ih => exact ih _ (putKey_nodup _ _ _ h)

/-- The last class of a type string. -/
theorem lookup_foldl_putKey (l : List VClass) (d : List (String × VClass)) (s : String) :
    (l.foldl (fun d c => putKey c.typeString c d) d).lookup s =
      ((l.filter fun c => c.typeString == s).getLast?).or (d.lookup s) := by
  induction l generalizing d with
  | nil => simp
  | cons c l ih =>
    rw [List.foldl_cons, ih, lookup_putKey, List.filter_cons]
    by_cases h : c.typeString = s
    · rw [if_pos h.symm, if_pos (by simpa using h)]
      cases e : (l.filter fun c => c.typeString == s).getLast? with
      | none =>
        rw [List.getLast?_eq_none_iff] at e
        simp [e]
      | some x =>
        rw [List.getLast?_cons, e]
        simp
    · rw [if_neg (fun e => h e.symm), if_neg (by simpa using h)]

theorem mem_known {T : VTypes} {c : VClass} :
    c ∈ ((VTree.node T.root T.subs).walk.filter fun c => c != T.root && c != T.text) ↔ KnownType T c := by
  rw [List.mem_filter, mem_walk]
  simp [KnownType]

theorem lookup_find (T : VTypes) (s : String) :
    (findVariableTypes T).lookup s =
      (((VTree.node T.root T.subs).walk.filter fun c => c != T.root && c != T.text).filter fun c => c.typeString == s).getLast? := by
  rw [findVariableTypes, lookup_foldl_putKey]
  simp

theorem find_some {T : VTypes} {s : String} {c : VClass} (h : (findVariableTypes T).lookup s = some c) : KnownType T c ∧ c.typeString = s := by
  rw [lookup_find] at h
  have := List.mem_of_getLast? h
  rw [List.mem_filter, mem_known] at this
  exact ⟨this.1, by simpa using this.2⟩

theorem find_none {T : VTypes} {s : String} : (findVariableTypes T).lookup s = none ↔ ∀ c, KnownType T c → c.typeString ≠ s := by
  rw [lookup_find, List.getLast?_eq_none_iff, List.filter_eq_nil_iff]
  constructor
  · intro h c hc e
    exact h c (mem_known.mpr hc) (by simpa using e)
  · intro h c hc e
    exact h c (mem_known.mp hc) (by simpa using e)

theorem find_iff {T : VTypes} (ha : TypeStringsApart T) {s : String} {c : VClass} :
    (findVariableTypes T).lookup s = some c ↔ KnownType T c ∧ c.typeString = s := by
  refine ⟨find_some, fun ⟨h1, h2⟩ => ?_⟩
  cases e : (findVariableTypes T).lookup s with
  | none => exact absurd h2 (find_none.mp e c h1)
  | some d =>
    obtain ⟨h3, h4⟩ := find_some e
    rw [ha d c h3 h1 (by rw [h4, h2])]

theorem find_nodup (T : VTypes) : ((findVariableTypes T).map Prod.fst).Nodup := foldl_putKey_nodup _ _ (by simp)

theorem vt_mem_of_lookup {β : Type} {d : List (String × β)} (hn : (d.map Prod.fst).Nodup) {k : String} {v : β} :
    d.lookup k = some v ↔ (k, v) ∈ d := by
  induction d with
  | nil => simp
  | cons q l ih =>
    obtain ⟨x, y⟩ := q
    simp only [List.map_cons, List.nodup_cons] at hn
    rw [List.lookup_cons]
    by_cases hk : k = x
    · subst hk
      simp only [beq_self_eq_true, Option.some.injEq, List.mem_cons, Prod.mk.injEq, true_and]
      constructor
      · rintro rfl; exact Or.inl rfl
      · rintro (rfl | hm)
        · rfl
        · exact absurd (List.mem_map.mpr ⟨_, hm, rfl⟩) hn.1
    · rw [beq_false_of_ne hk]
      simp only [List.mem_cons, Prod.mk.injEq, hk, false_and, false_or]
      exact ih hn.2

theorem listVariableTypes_eq (T : VTypes) : listVariableTypes T = (findVariableTypes T).map fun p => ⟨p.2.name, p.1, p.2.doc⟩ := by
  unfold listVariableTypes
  induction findVariableTypes T with
  | nil => rfl
  | cons p d ih => simp only [List.map_cons, List.zipWith_cons_cons, ih]

end FT
