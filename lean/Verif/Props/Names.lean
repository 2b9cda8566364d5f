import Verif.Lemmas.Names3
import Verif.Props.Timedelta
import Verif.Props.TimedeltaExact
/-!
# C87: the names of features and of their columns identify them
-/
namespace FT
open Spec Reading

/-! ### The number of names -/

theorem length_indexed (s : String) (n : Nat) : (indexed s n).length = n := by simp [indexed]

theorem indexed_nodup (s : String) (n : Nat) : (indexed s n).Nodup := by
  unfold indexed
  rw [List.nodup_iff_pairwise_ne, List.pairwise_map]
  refine List.Pairwise.imp ?_ (List.nodup_iff_pairwise_ne.mp List.nodup_range)
  intro i j hij h
  have := congrArg String.toList h
  simp only [String.toList_append, List.append_assoc, List.append_cancel_left_eq] at this
  exact hij (repr_inj (List.append_cancel_right this))

theorem append_right_inj' {a b c : String} (h : a ++ c = b ++ c) : a = b := by
  have := congrArg String.toList h
  simp only [String.toList_append, List.append_cancel_right_eq] at this
  exact String.toList_inj.mp this

theorem append_left_inj' {a b c : String} (h : c ++ a = c ++ b) : a = b := by
  have := congrArg String.toList h
  simp only [String.toList_append, List.append_cancel_left_eq] at this
  exact String.toList_inj.mp this

theorem nodup_map_inj {α β : Type} {f : α → β} {l : List α} (hf : ∀ a b, f a = f b → a = b) (h : l.Nodup) :
    (l.map f).Nodup := by
  rw [List.nodup_iff_pairwise_ne, List.pairwise_map]
  exact List.Pairwise.imp (fun hab e => hab (hf _ _ e)) (List.nodup_iff_pairwise_ne.mp h)

theorem bindOk {α β : Type} {a : Except PyErr α} {k : α → Except PyErr β} {b : β} (h : a.bind k = .ok b) :
    ∃ c, a = .ok c ∧ k c = .ok b := by
  cases a with
  | error => cases h
  | ok c => exact ⟨c, rfl, h⟩

theorem mapOk {α β : Type} {a : Except PyErr α} {k : α → β} {b : β} (h : a.map k = .ok b) : ∃ c, a = .ok c ∧ b = k c := by
  cases a with
  | error => cases h
  | ok c => cases h; exact ⟨c, rfl, rfl⟩

/-- Without a name given, the names are those generated. -/
theorem names_generated {upper : String → String} {rels : List Relationship} {f : NFeat} {x : NNames}
    (hf : ∀ m b, f ≠ .renamed m b) (hx : f.namesOf upper rels = .ok x) :
    ∃ gen l, x = plainNames f.outputs gen l := by
  cases f with
  | identity v => cases hx; exact ⟨_, _, rfl⟩
  | direct r b =>
    obtain ⟨_, _, h⟩ := bindOk hx
    obtain ⟨_, _, rfl⟩ := mapOk h; exact ⟨_, _, rfl⟩
  | agg =>
    obtain ⟨_, _, h⟩ := bindOk hx
    obtain ⟨_, _, h⟩ := bindOk h
    obtain ⟨_, _, h⟩ := bindOk h
    obtain ⟨_, _, rfl⟩ := mapOk h; exact ⟨_, _, rfl⟩
  | trans => obtain ⟨_, _, rfl⟩ := mapOk hx; exact ⟨_, _, rfl⟩
  | equal => obtain ⟨_, _, rfl⟩ := mapOk hx; exact ⟨_, _, rfl⟩
  | groupby =>
    obtain ⟨_, _, h⟩ := bindOk hx
    obtain ⟨_, _, rfl⟩ := mapOk h; exact ⟨_, _, rfl⟩
  | slice b k =>
    obtain ⟨c, _, h⟩ := bindOk hx
    cases hs : c.names[k]? with
    | none => rw [hs] at h; cases h
    | some s => rw [hs] at h; cases h; exact ⟨_, _, rfl⟩
  | renamed m b => exact absurd rfl (hf m b)

theorem made_not_renamed {V : Vocabulary} {e : String} {f : NFeat} (h : Made V e f) : ∀ m b, f ≠ .renamed m b := by
  intro m b he; subst he; cases h

theorem names_of_one {V : Vocabulary} {e : String} {f : NFeat} (hf : Made V e f) (ho : f.outputs = 1) {x : NNames}
    (hx : f.namesOf V.upper V.rels = .ok x) : x.names = [x.name] := by
  obtain ⟨gen, l, rfl⟩ := names_generated (made_not_renamed hf) hx
  simp [plainNames, ho]

theorem names_shape (upper : String → String) (rels : List Relationship) : ∀ (f : NFeat) (x : NNames),
    f.namesOf upper rels = .ok x →
    (f.outputs ≠ 1 → x.genList.length = f.outputs ∧ x.genList.Nodup) ∧ x.names.length = f.outputs ∧ x.names.Nodup
  | .identity v, x, h => by
    cases h; exact ⟨fun h => absurd rfl h, rfl, by simp [plainNames]⟩
  | .direct r b, x, h => by
    simp only [NFeat.namesOf] at h
    cases hn : forwardName rels r with
    | error e => rw [hn] at h; cases h
    | ok n =>
      cases hb : b.namesOf upper rels with
      | error e => rw [hn, hb] at h; cases h
      | ok y =>
        rw [hn, hb] at h
        cases h
        obtain ⟨_, h2, h3⟩ := names_shape upper rels b y hb
        have hnd : (y.names.map fun s => n ++ "." ++ s).Nodup := nodup_map_inj (fun a b h => append_left_inj' h) h3
        refine ⟨fun _ => ⟨by simp [plainNames, h2, NFeat.outputs], hnd⟩, ?_, ?_⟩
        · simp only [plainNames, NFeat.outputs]; split
          · rename_i h; rw [h]; rfl
          · simpa using h2
        · simp only [plainNames]; split
          · simp
          · exact hnd
  | .agg p path bases wh prev, x, h => by
    simp only [NFeat.namesOf] at h
    cases h1 : aggPathName rels path with
    | error e => rw [h1] at h; cases h
    | ok n =>
      cases h2 : NFeat.baseNames upper rels bases with
      | error e => rw [h1, h2] at h; cases h
      | ok ns =>
        cases h3 : NFeat.baseNames upper rels wh with
        | error e => rw [h1, h2, h3] at h; cases h
        | ok ws =>
          cases h4 : usePrevStr prev with
          | error e => rw [h1, h2, h3, h4] at h; cases h
          | ok s =>
            rw [h1, h2, h3, h4] at h
            cases h
            refine ⟨fun _ => ⟨length_indexed _ _, indexed_nodup _ _⟩, ?_, ?_⟩
            · simp only [plainNames, NFeat.outputs]; split
              · rename_i h; rw [h]; rfl
              · exact length_indexed _ _
            · simp only [plainNames]; split
              · simp
              · exact indexed_nodup _ _
  | .trans p bases, x, h => by
    simp only [NFeat.namesOf] at h
    cases h2 : NFeat.baseNames upper rels bases with
    | error e => rw [h2] at h; cases h
    | ok ns =>
      rw [h2] at h
      cases h
      refine ⟨fun _ => ⟨length_indexed _ _, indexed_nodup _ _⟩, ?_, ?_⟩
      · simp only [plainNames, NFeat.outputs]; split
        · rename_i h; rw [h]; rfl
        · exact length_indexed _ _
      · simp only [plainNames]; split
        · simp
        · exact indexed_nodup _ _
  | .equal v b, x, h => by
    simp only [NFeat.namesOf] at h
    cases hb : b.namesOf upper rels with
    | error e => rw [hb] at h; cases h
    | ok y => rw [hb] at h; cases h; exact ⟨fun h => absurd rfl h, rfl, by simp [plainNames]⟩
  | .groupby p bases g, x, h => by
    simp only [NFeat.namesOf] at h
    cases h2 : NFeat.baseNames upper rels bases with
    | error e => rw [h2] at h; cases h
    | ok ns =>
      cases hg : g.namesOf upper rels with
      | error e => rw [h2, hg] at h; cases h
      | ok y =>
        rw [h2, hg] at h
        cases h
        have hnd : ((indexed (transName upper p ns) p.outputs).map fun n => n ++ " by " ++ y.name).Nodup :=
          nodup_map_inj (fun a b h => append_right_inj' (append_right_inj' h)) (indexed_nodup _ _)
        refine ⟨fun _ => ⟨by simp [plainNames, length_indexed, NFeat.outputs], hnd⟩, ?_, ?_⟩
        · simp only [plainNames, NFeat.outputs]; split
          · rename_i h; rw [h]; rfl
          · simp [length_indexed]
        · simp only [plainNames]; split
          · simp
          · exact hnd
  | .slice b n, x, h => by
    simp only [NFeat.namesOf] at h
    cases hb : b.namesOf upper rels with
    | error e => rw [hb] at h; cases h
    | ok y =>
      rw [hb] at h
      cases hs : y.names[n]? with
      | none => simp [Except.bind, hs] at h
      | some s =>
        simp only [Except.bind, hs, Option.elim] at h
        cases h
        exact ⟨fun h => absurd rfl h, rfl, by simp [plainNames]⟩
  | .renamed n b, x, h => by
    simp only [NFeat.namesOf] at h
    cases hb : b.namesOf upper rels with
    | error e => rw [hb] at h; cases h
    | ok y =>
      rw [hb] at h
      cases h
      obtain ⟨h1, h2, h3⟩ := names_shape upper rels b y hb
      refine ⟨h1, ?_, ?_⟩
      · simp only [renameNames, NFeat.outputs]
        by_cases ho : b.outputs = 1
        · simp [ho]
        · simp only [if_neg ho]
          generalize (if n = "" then y.gen else n) = m
          split <;> simp [length_indexed, (h1 ho).1]
      · simp only [renameNames]
        by_cases ho : b.outputs = 1
        · simp [ho]
        · simp only [if_neg ho]
          generalize (if n = "" then y.gen else n) = m
          split
          · exact indexed_nodup _ _
          · exact (h1 ho).2

/-- C87. A feature with names has one for each of its outputs, and they differ. -/
theorem C87_one_name_per_output (upper : String → String) (rels : List Relationship) (f : NFeat) (x : NNames)
    (h : f.namesOf upper rels = .ok x) : x.names.length = f.outputs ∧ x.names.Nodup :=
  (names_shape upper rels f x h).2

/-- C87. A feature renamed has the name given, and for several outputs that name with the number of each in brackets. -/
theorem C87_renamed (upper : String → String) (rels : List Relationship) (f : NFeat) (x y : NNames) (n : String)
    (hf : ∀ m b, f ≠ .renamed m b) (hn : n ≠ "") (hx : f.namesOf upper rels = .ok x)
    (hy : (NFeat.renamed n f).namesOf upper rels = .ok y) :
    y.name = n ∧
    (n ≠ x.name → ∀ i, i < f.outputs → y.names[i]? = some (if f.outputs = 1 then n else n ++ "[" ++ Nat.repr i ++ "]")) := by
  simp only [NFeat.namesOf, hx, Except.map, Except.ok.injEq] at hy
  subst hy
  have hgen : x.gen = x.name := by
    obtain ⟨gen, l, rfl⟩ := names_generated hf hx
    rfl
  have hl := (names_shape upper rels f x hx).1
  refine ⟨by simp [renameNames, hn], ?_⟩
  intro hne i hi
  by_cases ho : f.outputs = 1
  · have hi0 : i = 0 := by omega
    subst hi0
    simp [renameNames, hn, ho]
  · have := (hl ho).1
    simp only [renameNames, if_neg hn, if_neg ho, hgen, ne_eq, hne, not_false_eq_true, if_true]
    simp [indexed, this, hi]

/-- C87: an empty name given to a feature is no name: the names are those the feature had. -/
theorem C87_rename_empty (upper : String → String) (rels : List Relationship) (f : NFeat) (x y : NNames)
    (hf : ∀ m b, f ≠ .renamed m b) (hx : f.namesOf upper rels = .ok x)
    (hy : (NFeat.renamed "" f).namesOf upper rels = .ok y) : y.name = x.name ∧ y.names = x.names := by
  simp only [NFeat.namesOf, hx, Except.map, Except.ok.injEq] at hy
  subst hy
  obtain ⟨gen, l, rfl⟩ := names_generated hf hx
  by_cases ho : f.outputs = 1 <;> simp [renameNames, plainNames, ho]

/-- A column that is given an empty name. -/
example : (NFeat.renamed "" (.identity "amount")).namesOf id [] = .ok ⟨"amount", ["amount"], "amount", ["amount"]⟩ := by rfl

/-! ### Names identify features -/

/-- C87. Every feature made from a clear vocabulary has names. -/
theorem C87_named (V : Vocabulary) (hV : V.Clear) (e : String) (f : NFeat) (h : Made V e f) :
    ∃ x, f.namesOf V.upper V.rels = .ok x := by
  obtain ⟨_, _, x, hx, _⟩ := named_of_made hV h
  exact ⟨x, hx⟩

/-- C87, partial: two features of one entity with the same name are the same feature, when they are made from a clear
vocabulary (the full claim drops the conditions of `Clear` and `Made`; it is false, see below). -/
theorem C87_names_identify_partial (V : Vocabulary) (hV : V.Clear) (e : String) (f g : NFeat) (hf : Made V e f)
    (hg : Made V e g) (x y : NNames) (hx : f.namesOf V.upper V.rels = .ok x) (hy : g.namesOf V.upper V.rels = .ok y)
    (h : x.name = y.name) : f = g :=
  name_inj hV hf hg hx hy h

/-- The feature of one output. -/
def outputOf (i : Nat) : NFeat → NFeat
  | .direct r b => .direct r (outputOf i b)
  | f => if f.outputs = 1 then f else .slice f i

theorem whole_outputs {V : Vocabulary} {e : String} {f : NFeat} (hf : Made V e f) (hw : Whole f) :
    f.outputs = 1 ∨ Applied f ∨ ∃ r b, f = .direct r b := by
  cases hf with
  | identity _ => exact .inl rfl
  | direct _ _ => exact .inr (.inr ⟨_, _, rfl⟩)
  | slice => exact hw.elim
  | count => exact .inr (.inl trivial)
  | agg => exact .inr (.inl trivial)
  | trans => exact .inr (.inl trivial)
  | groupby => exact .inr (.inl trivial)

theorem outputOf_applied {f : NFeat} (ha : Applied f) (i : Nat) :
    outputOf i f = if f.outputs = 1 then f else .slice f i := by
  cases f <;> first | rfl | exact ha.elim

theorem column_applied {V : Vocabulary} (hV : V.Clear) {e : String} {f : NFeat} (hf : Made V e f) (ha : Applied f) {x : NNames}
    (hx : f.namesOf V.upper V.rels = .ok x) {i : Nat} {s : String} (hs : x.names[i]? = some s) (hi : i < f.outputs) :
    Made V e (outputOf i f) ∧ ∃ y, (outputOf i f).namesOf V.upper V.rels = .ok y ∧ y.name = s := by
  rw [outputOf_applied ha]
  by_cases ho : f.outputs = 1
  · rw [if_pos ho]
    refine ⟨hf, x, hx, ?_⟩
    rw [names_of_one hf ho hx] at hs
    have : i = 0 := by omega
    subst this
    simpa using hs
  · rw [if_neg ho]
    refine ⟨.slice hf ha (by omega) hi, plainNames 1 s [s], ?_, rfl⟩
    simp [NFeat.namesOf, hx, Except.bind, hs]

/-- The column of an output is the name of the feature of that output. -/
theorem column_name {V : Vocabulary} (hV : V.Clear) {e : String} {f : NFeat} (hf : Made V e f) (hw : Whole f) {x : NNames}
    (hx : f.namesOf V.upper V.rels = .ok x) {i : Nat} {s : String} (hs : x.names[i]? = some s) :
    Made V e (outputOf i f) ∧ ∃ y, (outputOf i f).namesOf V.upper V.rels = .ok y ∧ y.name = s := by
  have hlen := C87_one_name_per_output _ _ _ _ hx
  have hi : i < f.outputs := by
    rw [← hlen.1]; exact (List.getElem?_eq_some_iff.mp hs).1
  clear hlen
  induction hf generalizing x s with
  | @identity e v hv =>
    cases hx
    have : i = 0 := by simp [NFeat.outputs] at hi; exact hi
    subst this
    refine ⟨.identity hv, _, rfl, ?_⟩
    simpa [plainNames] using hs
  | @direct r b hr hb ih =>
    obtain ⟨n, hn, _⟩ := forwardName_ok (V := V) hr
    obtain ⟨z, hz⟩ := C87_named V hV _ b hb
    have hx' : plainNames b.outputs (n ++ "." ++ z.name) (z.names.map fun m => n ++ "." ++ m) = x := by
      simpa [NFeat.namesOf, hn, hz, Except.bind, Except.map] using hx
    subst hx'
    have hl := C87_one_name_per_output _ _ _ _ hz
    have hi' : i < z.names.length := by rw [hl.1]; exact hi
    obtain ⟨h1, y, hy, hyn⟩ := ih hw hz (List.getElem?_eq_getElem hi') hi
    refine ⟨.direct hr h1, plainNames (outputOf i b).outputs (n ++ "." ++ y.name) (y.names.map fun m => n ++ "." ++ m), ?_, ?_⟩
    · simp [outputOf, NFeat.namesOf, hn, hy, Except.bind, Except.map]
    · show n ++ "." ++ y.name = s
      rw [hyn]
      by_cases ho : b.outputs = 1
      · have h0 : i = 0 := by simp only [NFeat.outputs] at hi; omega
        subst h0
        simp only [plainNames, if_pos ho, List.getElem?_cons_zero, Option.some.injEq] at hs
        rw [← hs]
        have := names_of_one hb ho hz
        simp [this]
      · simp only [plainNames, if_neg ho, List.getElem?_map, List.getElem?_eq_getElem hi', Option.map_some,
          Option.some.injEq] at hs
        exact hs
  | @count e child p path wh prev h1 h2 h3 h4 h5 h6 h7 h8 h9 =>
    exact column_applied hV (.count h1 h2 h3 h4 h5 h6 h7 h8 h9) trivial hx hs hi
  | @agg e child p path bases wh prev h1 h2 h3 h4 h5 h6 h7 h8 h9 h10 h11 h12 =>
    exact column_applied hV (.agg h1 h2 h3 h4 h5 h6 h7 h8 h9 h10 h11 h12) trivial hx hs hi
  | @trans e p bases h1 h2 h3 h4 => exact column_applied hV (.trans h1 h2 h3 h4) trivial hx hs hi
  | @groupby e p bases g h1 h2 h3 h4 h5 => exact column_applied hV (.groupby h1 h2 h3 h4 h5) trivial hx hs hi
  | slice => exact hw.elim

theorem outputOf_inj {V : Vocabulary} {i j : Nat} : ∀ {f g : NFeat} {e e' : String}, Made V e f → Made V e' g → Whole f → Whole g →
    i < f.outputs → j < g.outputs → outputOf i f = outputOf j g → f = g ∧ i = j := by
  have unf : ∀ (k : Nat) (f : NFeat), (∀ r b, f ≠ .direct r b) → outputOf k f = if f.outputs = 1 then f else .slice f k := by
    intro k f hf; cases f <;> first | rfl | exact absurd rfl (hf _ _)
  intro f
  induction f using NFeat.rec (motive_2 := fun _ => True) with
  | direct r b ih =>
    intro g e e' hf hg hwf hwg hi hj h
    by_cases hd : ∃ r b, g = .direct r b
    · obtain ⟨r', b', rfl⟩ := hd
      simp only [outputOf, NFeat.direct.injEq] at h
      rcases made_kind hf with ⟨_, h'⟩ | ⟨r1, b1, h', _, _, hb⟩ | h' | ⟨_, _, h', _⟩
      · cases h'
      · cases h'
        rcases made_kind hg with ⟨_, h'⟩ | ⟨r1, b1, h', _, _, hb'⟩ | h' | ⟨_, _, h', _⟩
        · cases h'
        · cases h'
          obtain ⟨h1, h2⟩ := ih hb hb' hwf hwg hi hj h.2
          exact ⟨by rw [h.1, h1], h2⟩
        · exact h'.elim
        · cases h'
      · exact h'.elim
      · cases h'
    · rw [unf j g (fun r b e => hd ⟨r, b, e⟩)] at h
      simp only [outputOf] at h
      split at h
      · exact absurd ⟨_, _, h.symm⟩ hd
      · cases h
  | nil => trivial
  | cons => trivial
  | _ =>
    intro g e e' hf hg hwf hwg hi hj h
    rw [unf i _ (fun r b e => by cases e)] at h
    by_cases hd : ∃ r b, g = .direct r b
    · obtain ⟨r', b', rfl⟩ := hd
      simp only [outputOf] at h
      split at h <;> cases h
    · rw [unf j g (fun r b e => hd ⟨r, b, e⟩)] at h
      split at h
      · rename_i ho
        split at h
        · rename_i ho'
          subst h
          exact ⟨rfl, by omega⟩
        · rw [h] at hwf; exact hwf.elim
      · split at h
        · rw [← h] at hwg; exact hwg.elim
        · cases h; exact ⟨rfl, rfl⟩

/-- C87, partial: no two columns of the feature matrix have the same name, be they of one feature or of two, when the features
are whole and made from a clear vocabulary. -/
theorem C87_columns_identify_partial (V : Vocabulary) (hV : V.Clear) (e : String) (f g : NFeat) (hf : Made V e f)
    (hg : Made V e g) (hwf : Whole f) (hwg : Whole g) (x y : NNames) (hx : f.namesOf V.upper V.rels = .ok x)
    (hy : g.namesOf V.upper V.rels = .ok y) (i j : Nat) (s : String) (hi : x.names[i]? = some s)
    (hj : y.names[j]? = some s) : f = g ∧ i = j := by
  obtain ⟨h1, u, hu, hun⟩ := column_name hV hf hwf hx hi
  obtain ⟨h2, v, hv, hvn⟩ := column_name hV hg hwg hy hj
  have := name_inj hV h1 h2 hu hv (hun.trans hvn.symm)
  refine outputOf_inj hf hg hwf hwg ?_ ?_ this
  · rw [← (C87_one_name_per_output _ _ _ _ hx).1]; exact (List.getElem?_eq_some_iff.mp hi).1
  · rw [← (C87_one_name_per_output _ _ _ _ hy).1]; exact (List.getElem?_eq_some_iff.mp hj).1

/-! ### Relationships -/

/-- C87. A relationship is called after its parent, with the variable in brackets iff another one joins the same entities. -/
theorem C87_parent_name (rels : List Relationship) (hn : rels.Nodup) (r : Relationship) (hr : r ∈ rels) :
    ((∀ s ∈ rels, s.childE = r.childE → s.parentE = r.parentE → s = r) → r.parentName? rels = some r.parentE) ∧
    ((∃ s ∈ rels, s.childE = r.childE ∧ s.parentE = r.parentE ∧ s ≠ r) →
      r.parentName? rels = some (r.parentE ++ "[" ++ r.childV ++ "]")) := by
  obtain ⟨u, hu⟩ := isUnique_some hr
  have h := isUnique_true hn hr
  constructor
  · intro h'
    simp [Relationship.parentName?, h.mpr h']
  · rintro ⟨s, hs, h1, h2, h3⟩
    have : u = false := by
      cases u with
      | false => rfl
      | true => exact absurd (h.mp hu s hs h1 h2) h3
    subst this
    simp [Relationship.parentName?, hu]

/-- C87. The same seen from the parent. -/
theorem C87_child_name (rels : List Relationship) (hn : rels.Nodup) (r : Relationship) (hr : r ∈ rels) :
    ((∀ s ∈ rels, s.childE = r.childE → s.parentE = r.parentE → s = r) → r.childName? rels = some r.childE) ∧
    ((∃ s ∈ rels, s.childE = r.childE ∧ s.parentE = r.parentE ∧ s ≠ r) →
      r.childName? rels = some (r.childE ++ "[" ++ r.childV ++ "]")) := by
  obtain ⟨u, hu⟩ := isUnique_some hr
  have h := isUnique_true hn hr
  constructor
  · intro h'
    simp [Relationship.childName?, h.mpr h']
  · rintro ⟨s, hs, h1, h2, h3⟩
    have : u = false := by
      cases u with
      | false => rfl
      | true => exact absurd (h.mp hu s hs h1 h2) h3
    subst this
    simp [Relationship.childName?, hu]

/-- C87. A relationship that is not in the entity set, nor any other between its entities, has no name. -/
theorem C87_no_relationship_name (rels : List Relationship) (r : Relationship)
    (h : ∀ s ∈ rels, s.childE = r.childE → s.parentE ≠ r.parentE) :
    r.parentName? rels = none ∧ r.childName? rels = none := by
  have : r.isUnique? rels = none := by
    unfold Relationship.isUnique?
    have hnil : (getForwardRelationships rels r.childE).filter (fun s => s.parentE == r.parentE) = [] := by
      rw [List.filter_eq_nil_iff]
      intro s hs
      simp only [getForwardRelationships, List.mem_filter, beq_iff_eq] at hs
      simp [h s hs.1 hs.2]
    simp [hnil]
  simp [Relationship.parentName?, Relationship.childName?, this]

/-! ### Windows -/

/-- C87. A window of one documented unit has a readable name, and windows with one name are equal: such windows meet the
conditions of a clear vocabulary. -/
theorem C87_windows (u u' : String) (v v' : Int) (a b : Timedelta) (hu : (Spec.unitOf u).isSome) (hu' : (Spec.unitOf u').isSome)
    (ha : Timedelta.make [(u, v)] = .ok a) (hb : Timedelta.make [(u', v')] = .ok b) :
    (∃ s, a.getName = .ok s ∧ Phrase s ∧ ∃ c r, s.toList = c :: r ∧ (c.isDigit = true ∨ c = '-')) ∧
    (a.getName = b.getName → a = b) := by
  have hbuilt : ∀ (u : String) (v : Int) (a : Timedelta), (Spec.unitOf u).isSome → Timedelta.make [(u, v)] = .ok a →
      ∃ c ∈ documentedUnits.map Prod.fst, a.times = [(c, v)] ∧
        a.delta = if c = "o" then none else if c ∈ ["mo", "Y"] then some (.relative [(calendarName c, v)])
          else some (.absolute v c) := by
    intro u v a hu ha
    obtain ⟨c, hc⟩ := Option.isSome_iff_exists.mp hu
    have ham : amounts [(u, v)] = [(c, v)] := by
      simp [amounts, lastGiven, hc, List.eraseDups_cons]
    rw [C18_built _ (by simpa using hu)] at ha
    have hmem : c ∈ documentedUnits.map Prod.fst := by
      unfold unitOf at hc
      obtain ⟨x, hx, rfl⟩ := Option.map_eq_some_iff.mp hc
      exact List.mem_map.mpr ⟨x, List.mem_of_find?_eq_some hx, rfl⟩
    refine ⟨c, hmem, ?_⟩
    simp only [built, ham, List.any_cons, List.any_nil, Bool.or_false, beq_iff_eq] at ha
    by_cases ho : c = "o"
    · rw [if_pos ho] at ha; cases ha; exact ⟨rfl, by simp [ho]⟩
    · rw [if_neg ho] at ha
      by_cases hm : c ∈ ["mo", "Y"]
      · rw [if_pos hm] at ha; cases ha; exact ⟨rfl, by rw [if_neg ho, if_pos hm]⟩
      · rw [if_neg hm] at ha; cases ha; exact ⟨rfl, by rw [if_neg ho, if_neg hm]⟩
  obtain ⟨c, hc, ht, hd⟩ := hbuilt u v a hu ha
  obtain ⟨c', hc', ht', hd'⟩ := hbuilt u' v' b hu' hb
  have hname : ∃ s, a.getName = .ok s ∧ Phrase s ∧ ∃ c r, s.toList = c :: r ∧ (c.isDigit = true ∨ c = '-') := by
    have hr : ∀ c ∈ documentedUnits.map Prod.fst, ∃ r, Timedelta.readableUnits.get? c = some r ∧
        ∀ x ∈ r.toList, x ≠ ',' ∧ x ≠ ')' := by
      have : ∀ c ∈ documentedUnits.map Prod.fst, ((Timedelta.readableUnits.get? c).any fun r =>
          r.toList.all fun x => x != ',' && x != ')') = true := by decide
      intro c hc
      have := this c hc
      cases hg : Timedelta.readableUnits.get? c with
      | none => rw [hg] at this; cases this
      | some r => rw [hg] at this; exact ⟨r, rfl, by simpa using this⟩
    obtain ⟨r, hr, hr'⟩ := hr c hc
    refine ⟨Int.repr v ++ " " ++ r, by simp [Timedelta.getName, ht, Timedelta.unitName, hr], ?_, ?_⟩
    · intro x hx
      simp only [String.toList_append, List.mem_append] at hx
      have hdig : ∀ n : Nat, ∀ x ∈ (Nat.repr n).toList, x ≠ ',' ∧ x ≠ ')' := by
        intro n x hx
        rw [Nat.toList_repr] at hx
        have := Nat.isDigit_of_mem_toDigits (by decide) (by decide) hx
        constructor <;> (rintro rfl; revert this; decide)
      rcases hx with (hx | hx) | hx
      · cases v with
        | ofNat n => exact hdig n x hx
        | negSucc n =>
          simp only [Int.repr, String.toList_append, List.mem_append] at hx
          rcases hx with hx | hx
          · have : x = '-' := by simpa using hx
            subst this; decide
          · exact hdig _ x hx
      · have : x = ' ' := by simpa using hx
        subst this; decide
      · exact hr' x hx
    · cases v with
      | ofNat n =>
        have hne : Nat.toDigits 10 n ≠ [] := Nat.toDigits_ne_nil
        obtain ⟨d, ds, hds⟩ := List.exists_cons_of_ne_nil hne
        refine ⟨d, ds ++ ' ' :: r.toList, ?_, .inl ?_⟩
        · simp [Int.repr, String.toList_append, hds]
        · have hdm : d ∈ Nat.toDigits 10 n := by rw [hds]; simp
          exact Nat.isDigit_of_mem_toDigits (by decide) (by decide) hdm
      | negSucc n =>
        exact ⟨'-', _, by simp [Int.repr, String.toList_append]; rfl, .inr rfl⟩
  refine ⟨hname, ?_⟩
  intro he
  obtain ⟨s, hs, _⟩ := hname
  have := C18_names_distinct_partial a b s (by simpa [ht] using hc) (by simpa [ht'] using hc') (.inr (by simp [ht]))
    (.inr (by simp [ht'])) hs (he ▸ hs)
  rw [ht, ht'] at this
  simp only [List.cons.injEq, Prod.mk.injEq, and_true] at this
  obtain ⟨rfl, rfl⟩ := this
  cases a; cases b; simp_all

/-! ### Examples -/

instance (s : String) : Decidable (Word s) := inferInstanceAs (Decidable (_ ∧ _))
instance (s : String) : Decidable (Phrase s) := inferInstanceAs (Decidable (∀ _ ∈ _, _))

namespace NamesExample

def sc : Relationship := ⟨"customers", "id", "sessions", "customer_id"⟩
def ls : Relationship := ⟨"sessions", "id", "log", "session_id"⟩
def origin : Relationship := ⟨"airports", "id", "flights", "origin"⟩
def dest : Relationship := ⟨"airports", "id", "flights", "dest"⟩

def sum : NPrim := ⟨"SUM", [], 1, false, false⟩
def count : NPrim := ⟨"COUNT", [], 1, false, true⟩
def top : NPrim := ⟨"TOP", [("n", "2")], 2, false, false⟩
def diff : NPrim := ⟨"DIFF", [], 1, true, false⟩
def week : Timedelta := ⟨[("w", 1)], some (.absolute 1 "w")⟩

def V : Vocabulary := ⟨id, [sc, ls, origin, dest], fun _ => "id", [sum, count, top, diff], [week]⟩

theorem clear : V.Clear where
  once := by decide
  oneWay := by decide
  arrives := by decide
  entities := by decide
  primNames := by decide
  primArgs := by decide
  counting := by decide
  primsApart := by decide
  windowNames := by
    intro td htd
    simp only [V, List.mem_singleton] at htd
    subst htd
    exact ⟨"1 Weeks", by decide, by decide, '1', " Weeks".toList, by decide, .inl (by decide)⟩
  windowsApart := by
    intro a ha b hb _
    simp only [V, List.mem_singleton] at ha hb
    rw [ha, hb]

def nameOf (f : NFeat) : Option String := (f.namesOf V.upper V.rels).toOption.map NNames.name
def columnsOf (f : NFeat) : Option (List String) := (f.namesOf V.upper V.rels).toOption.map NNames.names

def topLog : NFeat := .agg top [sc, ls] [.identity "product"] [.equal "desktop" (.direct ls (.identity "device"))] (some week)
def flightsOut : NFeat := .agg count [origin] [.identity "id"] [] none
def flightsIn : NFeat := .agg count [dest] [.identity "id"] [] none
def diffOfSums : NFeat := .groupby diff [.agg sum [ls] [.identity "amount"] [] none] (.direct sc (.identity "region"))

example : nameOf topLog = some "TOP(log.product WHERE sessions.device = desktop, Last 1 Weeks, n=2)" := by decide +kernel
example : columnsOf topLog = some ["TOP(log.product WHERE sessions.device = desktop, Last 1 Weeks, n=2)[0]",
    "TOP(log.product WHERE sessions.device = desktop, Last 1 Weeks, n=2)[1]"] := by decide +kernel
example : nameOf flightsOut = some "COUNT(flights[origin])" := by decide +kernel
example : nameOf flightsIn = some "COUNT(flights[dest])" := by decide +kernel
example : nameOf diffOfSums = some "DIFF(SUM(log.amount)) by customers.region" := by decide +kernel
example : nameOf (.direct sc topLog) = some "customers.TOP(log.product WHERE sessions.device = desktop, Last 1 Weeks, n=2)" := by
  decide +kernel
example : nameOf (.direct dest (.identity "city")) = some "airports[dest].city" := by decide +kernel
example : columnsOf (.renamed "best" topLog) = some ["best[0]", "best[1]"] := by decide +kernel
example : columnsOf (.renamed "" topLog) = columnsOf topLog := by decide +kernel
example : columnsOf (.trans top [.identity "a", .identity "b"]) = some ["TOP(a, b, n=2)[0]", "TOP(a, b, n=2)[1]"] := by
  decide +kernel
example : columnsOf (.groupby top [.identity "a"] (.identity "g")) = some ["TOP(a, n=2)[0] by g", "TOP(a, n=2)[1] by g"] := by
  decide +kernel

/-- The example features are made from the vocabulary. -/
theorem topLog_made : Made V "customers" topLog := by
  refine Made.agg (child := "log") (by decide) rfl rfl (by simp) ⟨by simp [Chain, V, sc, ls], by decide⟩ (by simp) ?_ ?_ ?_ ?_
    (by simp) ?_
  · intro b hb
    simp only [List.mem_singleton] at hb
    subst hb; exact .identity (by decide)
  · intro w hw hn
    simp only [List.mem_singleton] at hw
    exact absurd hw (hn _ _)
  · intro v b hvb
    simp only [List.mem_singleton, NFeat.equal.injEq] at hvb
    rw [hvb.1]; decide
  · intro v b hvb
    simp only [List.mem_singleton, NFeat.equal.injEq] at hvb
    rw [hvb.2]
    exact Made.direct (V := V) (r := ls) (by decide) (.identity (by decide))
  · intro td h; cases h; decide

theorem flights_made : Made V "airports" flightsOut ∧ Made V "airports" flightsIn := by
  refine ⟨?_, ?_⟩
  · exact Made.count (V := V) (child := "flights") (by decide) rfl (by simp) ⟨by simp [Chain, V, origin], by decide⟩ (by simp)
      (by simp) (by simp) (by simp) (fun _ h => by cases h)
  · exact Made.count (V := V) (child := "flights") (by decide) rfl (by simp) ⟨by simp [Chain, V, dest], by decide⟩ (by simp)
      (by simp) (by simp) (by simp) (fun _ h => by cases h)

theorem diff_made : Made V "sessions" diffOfSums := by
  refine Made.groupby (by decide) rfl (by simp) ?_ (Made.direct (V := V) (r := sc) (by decide) (.identity (by decide)))
  intro b hb
  simp only [List.mem_singleton] at hb
  subst hb
  refine Made.agg (child := "log") (by decide) rfl rfl (by simp) ⟨by simp [Chain, V, ls], by decide⟩ (by simp) ?_ (by simp)
    (by simp) (by simp) (by simp) (fun _ h => by cases h)
  intro b hb
  simp only [List.mem_singleton] at hb
  subst hb; exact .identity (by decide)

example : Whole topLog ∧ Whole flightsOut ∧ Whole diffOfSums := ⟨trivial, trivial, trivial⟩
example : Made V "customers" (.slice topLog 1) := .slice topLog_made trivial (by decide) (by decide)
example : Timedelta.make [("Weeks", 1)] = .ok week ∧ (Spec.unitOf "Weeks").isSome := by decide

/-! What the conditions exclude. -/

def manager : Relationship := ⟨"employees", "id", "employees", "manager"⟩
def mentor : Relationship := ⟨"employees", "id", "employees", "mentor"⟩

def works : Relationship := ⟨"departments", "id", "employees", "department"⟩
def head : Relationship := ⟨"employees", "id", "departments", "head"⟩
def employer : Relationship := ⟨"companies", "id", "employees", "company"⟩
def owner : Relationship := ⟨"companies", "id", "departments", "company"⟩

end NamesExample
open NamesExample

/-- C87, negation of the full claim: with two relationships of an entity to itself, the number of the employees someone manages
and the number of those they mentor have one name. -/
theorem C87_self_relationships_violated :
    ∃ (rels : List Relationship) (f g : NFeat) (n : String), rels.Nodup ∧ f = .agg count [manager] [.identity "id"] [] none ∧
      g = .agg count [mentor] [.identity "id"] [] none ∧ manager ∈ rels ∧ mentor ∈ rels ∧ manager ≠ mentor ∧
      ((f.namesOf id rels).toOption.map NNames.name) = some n ∧ ((g.namesOf id rels).toOption.map NNames.name) = some n :=
  ⟨[manager, mentor], _, _, "COUNT(employees)", by decide, rfl, rfl, by decide, by decide, by decide, by decide +kernel,
    by decide +kernel⟩

/-- C87, negation of the full claim: when employees have departments and departments have heads, the budgets of the
departments of a company's employees and the budgets of the departments whose heads the company employs are called the
same. -/
theorem C87_two_way_violated :
    ∃ (rels : List Relationship) (f g : NFeat) (n : String), rels.Nodup ∧
      f = .agg sum [employer] [.direct works (.identity "budget")] [] none ∧
      g = .agg sum [employer, head] [.identity "budget"] [] none ∧ (∀ r ∈ [works, head, employer, owner], r ∈ rels) ∧
      ((f.namesOf id rels).toOption.map NNames.name) = some n ∧ ((g.namesOf id rels).toOption.map NNames.name) = some n :=
  ⟨[works, head, employer, owner], _, _, "SUM(employees.departments.budget)", by decide, rfl, rfl, by decide, by decide +kernel,
    by decide +kernel⟩

/-- C87, negation of the full claim: a variable with a point in its name and a variable of the parent have one name. -/
theorem C87_point_violated :
    ∃ (f g : NFeat) (n : String), f = .identity "customers.age" ∧ g = .direct sc (.identity "age") ∧
      ((f.namesOf id [sc]).toOption.map NNames.name) = some n ∧ ((g.namesOf id [sc]).toOption.map NNames.name) = some n :=
  ⟨_, _, "customers.age", rfl, rfl, by decide, by decide +kernel⟩

/-- C87, negation of the full claim: two primitives whose names differ in case only give features of one name. -/
theorem C87_case_violated (upper : String → String) (rels : List Relationship) (p q : NPrim) (h : upper p.name = upper q.name)
    (ha : p.args = q.args) (ho : p.outputs = q.outputs) (bases : List NFeat) :
    (NFeat.trans p bases).namesOf upper rels = (NFeat.trans q bases).namesOf upper rels := by
  simp [NFeat.namesOf, transName, h, ha, ho]

/-- C87, negation of the full claim: an output of a feature taken over from the parent, and the output of the parent's feature
taken over, are different features with one name. -/
theorem C87_slices_violated :
    ∃ (f g : NFeat) (n : String), f = .slice (.direct sc topLog) 1 ∧ g = .direct sc (.slice topLog 1) ∧
      ((f.namesOf V.upper V.rels).toOption.map NNames.name) = some n ∧
      ((g.namesOf V.upper V.rels).toOption.map NNames.name) = some n :=
  ⟨_, _, "customers.TOP(log.product WHERE sessions.device = desktop, Last 1 Weeks, n=2)[1]", rfl, rfl, by decide +kernel,
    by decide +kernel⟩

example : ("sum".toList.map Char.toUpper) = ("Sum".toList.map Char.toUpper) := by decide

/-! ### The entities of a path -/

/-- C02. The entities of a path up are those its chain visits, from the child on. -/
theorem C02_entities_forward (rels : List Relationship) (a b : String) (p : List Relationship) (hp : p ≠ [])
    (h : Chain rels a b p) : pathEntities (p.map fun r => (true, r)) = visited a p := by
  obtain ⟨r, q, rfl⟩ := List.exists_cons_of_ne_nil hp
  simp [pathEntities, visited, h.2.1, Function.comp_def]

/-- C02. The entities of a path down are those the chain visits, from the ancestor on. -/
theorem C02_entities_backward (rels : List Relationship) (a b : String) (p : List Relationship) (hp : p ≠ [])
    (h : Chain rels a b p.reverse) : pathEntities (p.map fun r => (false, r)) = (visited a p.reverse).reverse := by
  have hd := down_of_chain h
  have key : ∀ (e : String) (p : List Relationship), Down rels e a p → e :: p.map (·.childE) = p.map (·.parentE) ++ [a] := by
    intro e p
    induction p generalizing e with
    | nil => intro h; simp [show e = a from h]
    | cons r p ih => intro h; simp [ih _ h.2.2, h.2.1]
  obtain ⟨r, q, rfl⟩ := List.exists_cons_of_ne_nil hp
  have := key b (r :: q) hd
  rw [← hd.2.1] at this
  simpa [pathEntities, visited, Function.comp_def] using this

example : Chain [sc, ls] "log" "customers" [ls, sc] := by simp [Chain, sc, ls]

end FT
