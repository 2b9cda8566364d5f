import Verif.Spec.Keys
/-!
# Objects of the package in lists, sets and dictionaries (C92)
-/
namespace FT
open FT.Spec

section
variable {α : Type} {K : KeyType α} {P : α → Prop} {same : α → α → Prop}

theorem inList_answer (hr : ∀ a, same a a) {x : Ref α} : ∀ {l : List (Ref α)}, (∀ m ∈ l, m.addr = x.addr → m.val = x.val) →
    (∀ m ∈ l, (K.eq m.val x.val = .ok true ∧ same m.val x.val) ∨ (K.eq m.val x.val = .ok false ∧ ¬same m.val x.val)) →
    (inList K l x = .ok true ∧ ∃ m ∈ l, same m.val x.val) ∨ (inList K l x = .ok false ∧ ¬∃ m ∈ l, same m.val x.val)
  | [], _, _ => .inr ⟨rfl, by rintro ⟨_, h, _⟩; cases h⟩
  | m :: l, hh, he => by
    have key : (meets K m x = .ok true ∧ same m.val x.val) ∨ (meets K m x = .ok false ∧ ¬same m.val x.val) := by
      unfold meets
      by_cases ha : m.addr = x.addr
      · rw [if_pos ha, hh m List.mem_cons_self ha]
        exact .inl ⟨rfl, hr _⟩
      · rw [if_neg ha]
        exact he m List.mem_cons_self
    unfold inList
    rcases key with ⟨h1, h2⟩ | ⟨h1, h2⟩
    · rw [h1]
      exact .inl ⟨rfl, m, List.mem_cons_self, h2⟩
    · rw [h1]
      rcases inList_answer hr (fun m' hm => hh m' (List.mem_cons_of_mem _ hm)) (fun m' hm => he m' (List.mem_cons_of_mem _ hm)) with ⟨h3, m', hm', h4⟩ | ⟨h3, h4⟩
      · exact .inl ⟨h3, m', List.mem_cons_of_mem _ hm', h4⟩
      · refine .inr ⟨h3, ?_⟩
        rintro ⟨m', hm', h5⟩
        rcases List.mem_cons.mp hm' with rfl | hm'
        · exact h2 h5
        · exact h4 ⟨m', hm', h5⟩

theorem list_answers (hr : ∀ a, same a a)
    (he : ∀ a b, P a → P b → (K.eq a b = .ok true ∧ same a b) ∨ (K.eq a b = .ok false ∧ ¬same a b)) : Answers P same (inList K) :=
  fun _ x hh hp => inList_answer hr (fun m hm ha => hh m (List.mem_cons_of_mem _ hm) x List.mem_cons_self ha)
    fun m hm => he _ _ (hp m (List.mem_cons_of_mem _ hm)) (hp x List.mem_cons_self)

variable {h : α → Int} (hash : ∀ a, K.hash a = .ok (h a)) (hr : ∀ a, same a a) (hc : ∀ a b, P a → P b → same a b → h a = h b)
  (he : ∀ a b, P a → P b → h a = h b → (K.eq a b = .ok true ∧ same a b) ∨ (K.eq a b = .ok false ∧ ¬same a b))
include hash hr hc he

theorem set_answers : Answers P same (inSet K) := by
  intro l x hh hp
  have hx := hp x List.mem_cons_self
  unfold inSet
  rw [hash]
  have hs : ∀ m : Ref α, sameHash K (h x.val) m = true ↔ h m.val = h x.val := fun m => by
    unfold sameHash
    rw [hash]
    exact beq_iff_eq
  have hm : ∀ m, m ∈ l.filter (sameHash K (h x.val)) ↔ m ∈ l ∧ h m.val = h x.val := fun m => by rw [List.mem_filter, hs]
  rcases inList_answer (K := K) hr (l := l.filter (sameHash K (h x.val))) (x := x)
    (fun m hm' ha => hh m (List.mem_cons_of_mem _ ((hm m).mp hm').1) x List.mem_cons_self ha)
    (fun m hm' => he _ _ (hp m (List.mem_cons_of_mem _ ((hm m).mp hm').1)) hx ((hm m).mp hm').2) with ⟨h1, m, h2, h3⟩ | ⟨h1, h2⟩
  · exact .inl ⟨h1, m, ((hm m).mp h2).1, h3⟩
  · refine .inr ⟨h1, ?_⟩
    rintro ⟨m, h3, h4⟩
    exact h2 ⟨m, (hm m).mpr ⟨h3, hc _ _ (hp m (List.mem_cons_of_mem _ h3)) hx h4⟩, h4⟩

theorem addAll_once : ∀ (l s : List (Ref α)), OneHeap (s ++ l) → (∀ m ∈ s ++ l, P m.val) → (s.Pairwise fun a b => ¬same a.val b.val) →
    ∃ t, addAll K s l = .ok t ∧ (∀ m ∈ s, m ∈ t) ∧ (∀ m ∈ t, m ∈ s ++ l) ∧ (∀ m ∈ s ++ l, ∃ m' ∈ t, same m'.val m.val) ∧ t.Pairwise fun a b => ¬same a.val b.val
  | [], s, _, _, hs => ⟨s, rfl, fun _ h => h, fun m hm => by simpa using hm, fun m hm => ⟨m, by simpa using hm, hr _⟩, hs⟩
  | x :: l, s, hh, hp, hs => by
    have hx : x ∈ s ++ x :: l := by simp
    have hsub : ∀ m ∈ x :: s, m ∈ s ++ x :: l := fun m hm => by
      rcases List.mem_cons.mp hm with rfl | hm
      · exact hx
      · exact List.mem_append_left _ hm
    unfold addAll
    rcases set_answers hash hr hc he s x (fun a ha b hb => hh a (hsub a ha) b (hsub b hb)) (fun m hm => hp m (hsub m hm)) with ⟨h1, m0, hm0, h2⟩ | ⟨h1, h2⟩
    · rw [h1]
      have hsub2 : ∀ m ∈ s ++ l, m ∈ s ++ x :: l := fun m hm => by
        rcases List.mem_append.mp hm with hm | hm
        · exact List.mem_append_left _ hm
        · exact List.mem_append_right _ (List.mem_cons_of_mem _ hm)
      obtain ⟨t, t1, t0, t2, t3, t4⟩ := addAll_once l s (fun a ha b hb => hh a (hsub2 a ha) b (hsub2 b hb)) (fun m hm => hp m (hsub2 m hm)) hs
      refine ⟨t, t1, t0, fun m hm => hsub2 m (t2 m hm), fun m hm => ?_, t4⟩
      rcases List.mem_append.mp hm with hm | hm
      · exact t3 m (List.mem_append_left _ hm)
      · rcases List.mem_cons.mp hm with rfl | hm
        · exact ⟨m0, t0 m0 hm0, h2⟩
        · exact t3 m (List.mem_append_right _ hm)
    · rw [h1]
      have e : s ++ [x] ++ l = s ++ x :: l := by simp
      obtain ⟨t, t1, t0, t2, t3, t4⟩ := addAll_once l (s ++ [x]) (e ▸ hh) (e ▸ hp) (List.pairwise_append.mpr ⟨hs, List.pairwise_singleton _ _, fun a ha b hb => by
        rw [List.mem_singleton.mp hb]
        exact fun h => h2 ⟨a, ha, h⟩⟩)
      rw [e] at t2 t3
      exact ⟨t, t1, fun m hm => t0 m (List.mem_append_left _ hm), t2, t3, t4⟩

theorem set_once : HasOnce P same (pySet K) := by
  intro l hh hp
  obtain ⟨t, t1, _, t2, t3, t4⟩ := addAll_once hash hr hc he l [] hh hp .nil
  exact ⟨t, t1, t2, t3, t4⟩

end

/-! ## Relationships and paths -/

theorem relationshipEq_iff {a b : Relationship} : relationshipEq a b = true ↔ a = b := by
  obtain ⟨a1, a2, a3, a4⟩ := a
  obtain ⟨b1, b2, b3, b4⟩ := b
  simp only [relationshipEq, Bool.and_eq_true, beq_iff_eq, Relationship.mk.injEq]
  exact ⟨fun ⟨⟨⟨h1, h2⟩, h3⟩, h4⟩ => ⟨h1, h3, h2, h4⟩, fun ⟨h1, h2, h3, h4⟩ => ⟨⟨⟨h1, h3⟩, h2⟩, h4⟩⟩

theorem ok_cases {b : Bool} {p : Prop} (h : b = true ↔ p) : ((.ok b : Except PyErr Bool) = .ok true ∧ p) ∨ ((.ok b : Except PyErr Bool) = .ok false ∧ ¬p) := by
  cases b with
  | true => exact .inl ⟨rfl, h.mp rfl⟩
  | false => exact .inr ⟨rfl, fun hp => by cases h.mpr hp⟩

/-- C92. Relationships with the same entities and variables are one and the same in lists, sets and dictionaries, whatever the hash of a tuple is. -/
theorem C92_relationships (tuple : List String → Int) :
    Answers (fun _ => True) Eq (inList (relationshipKeys tuple)) ∧ Answers (fun _ => True) Eq (inSet (relationshipKeys tuple)) ∧
      HasOnce (fun _ => True) Eq (pySet (relationshipKeys tuple)) :=
  have he : ∀ a b : Relationship, ((relationshipKeys tuple).eq a b = .ok true ∧ a = b) ∨ ((relationshipKeys tuple).eq a b = .ok false ∧ ¬a = b) :=
    fun _ _ => ok_cases relationshipEq_iff
  ⟨list_answers (fun _ => rfl) fun a b _ _ => he a b,
    set_answers (h := relationshipHash tuple) (fun _ => rfl) (fun _ => rfl) (fun _ _ _ _ e => e ▸ rfl) fun a b _ _ _ => he a b,
    set_once (h := relationshipHash tuple) (fun _ => rfl) (fun _ => rfl) (fun _ _ _ _ e => e ▸ rfl) fun a b _ _ _ => he a b⟩

theorem stepsEq_iff : ∀ {a b : RelPath}, stepsEq a b = true ↔ a = b
  | [], [] => by simp [stepsEq]
  | [], _ :: _ => by simp [stepsEq]
  | _ :: _, [] => by simp [stepsEq]
  | (d, r) :: as, (d', r') :: bs => by
    simp only [stepsEq, Bool.and_eq_true, beq_iff_eq, relationshipEq_iff, stepsEq_iff (a := as), List.cons.injEq, Prod.mk.injEq]

/-- C92. Paths are found in lists; they cannot be put in sets or dictionaries. -/
theorem C92_paths : Answers (fun _ => True) Eq (inList pathKeys) ∧ (∀ s x, inSet pathKeys s x = .error .typeError) ∧
    ∀ l, l ≠ [] → pySet pathKeys l = .error .typeError := by
  refine ⟨list_answers (fun _ => rfl) fun a b _ _ => ok_cases stepsEq_iff, fun _ _ => rfl, fun l hl => ?_⟩
  cases l with
  | nil => exact absurd rfl hl
  | cons => rfl

/-! ## Variables -/

theorem variableEq_iff {sub : String → String → Bool} (hs : ClassOrder sub) {a b : VarObj} : variableEq sub a b = true ↔ a = b := by
  obtain ⟨c, i, e⟩ := a
  obtain ⟨c', i', e'⟩ := b
  simp only [variableEq, variableDunderEq]
  by_cases hc : c = c'
  · subst hc
    simp [hs.1 c]
  · by_cases h1 : sub c' c = true
    · rw [if_pos ⟨hc, h1⟩]
      have h2 : sub c c' = false := by
        cases h2 : sub c c' with
        | false => rfl
        | true => exact absurd (hs.2 c c' h2 h1) hc
      simp [h2, hc]
    · rw [if_neg fun h => h1 h.2]
      simp [hc, h1]

/-- C92. Variables of the same class, id and entity are one and the same in lists, sets and dictionaries; a variable of a subclass is
another one. -/
theorem C92_variables (sub : String → String → Bool) (hs : ClassOrder sub) (tuple : List String → Int) :
    Answers (fun _ => True) Eq (inList (variableKeys sub tuple)) ∧ Answers (fun _ => True) Eq (inSet (variableKeys sub tuple)) ∧
      HasOnce (fun _ => True) Eq (pySet (variableKeys sub tuple)) :=
  have he : ∀ a b : VarObj, ((variableKeys sub tuple).eq a b = .ok true ∧ a = b) ∨ ((variableKeys sub tuple).eq a b = .ok false ∧ ¬a = b) :=
    fun _ _ => ok_cases (variableEq_iff hs)
  ⟨list_answers (fun _ => rfl) fun a b _ _ => he a b,
    set_answers (h := fun a => tuple [a.id, a.entity]) (fun _ => rfl) (fun _ => rfl) (fun _ _ _ _ e => e ▸ rfl) fun a b _ _ _ => he a b,
    set_once (h := fun a => tuple [a.id, a.entity]) (fun _ => rfl) (fun _ => rfl) (fun _ _ _ _ e => e ▸ rfl) fun a b _ _ _ => he a b⟩

/-! ## Entities -/

theorem entityDunderEq_iff {a b : BuildEnt} : entityDunderEq a b = true ↔ SameSchemaOf a b := by
  have hmem : ∀ {e : BuildEnt} {o : VarObj}, o ∈ varObjs e ↔ (o.id, o.cls) ∈ e.vars ∧ o.entity = e.id := by
    intro e o
    unfold varObjs
    rw [List.mem_map]
    constructor
    · rintro ⟨v, hv, rfl⟩
      exact ⟨hv, rfl⟩
    · rintro ⟨h1, h2⟩
      exact ⟨_, h1, by cases o; subst h2; rfl⟩
  unfold entityDunderEq SameSchemaOf
  simp only [Bool.and_eq_true, beq_iff_eq, List.all_eq_true, List.contains_iff_mem]
  constructor
  · rintro ⟨⟨⟨⟨h1, h2⟩, h3⟩, h4⟩, h5, h6⟩
    refine ⟨h1, h2, h3, h4, fun v => ⟨fun hv => ?_, fun hv => ?_⟩, fun hne => ?_⟩
    · exact (hmem.mp (h5 ⟨v.2, v.1, a.id⟩ (hmem.mpr ⟨hv, rfl⟩))).1
    · exact (hmem.mp (h6 ⟨v.2, v.1, b.id⟩ (hmem.mpr ⟨hv, rfl⟩))).1
    · obtain ⟨v, hv⟩ := List.exists_mem_of_ne_nil _ hne
      exact (hmem.mp (h5 ⟨v.2, v.1, a.id⟩ (hmem.mpr ⟨hv, rfl⟩))).2
  · rintro ⟨h1, h2, h3, h4, h5, h6⟩
    refine ⟨⟨⟨⟨h1, h2⟩, h3⟩, h4⟩, fun o ho => ?_, fun o ho => ?_⟩
    · obtain ⟨g1, g2⟩ := hmem.mp ho
      exact hmem.mpr ⟨(h5 _).mp g1, g2.trans (h6 (List.ne_nil_of_mem g1))⟩
    · obtain ⟨g1, g2⟩ := hmem.mp ho
      have := (h5 _).mpr g1
      exact hmem.mpr ⟨this, g2.trans (h6 (List.ne_nil_of_mem this)).symm⟩

theorem sameSchema_refl (a : BuildEnt) : SameSchemaOf a a := ⟨rfl, rfl, rfl, rfl, fun _ => .rfl, fun _ => rfl⟩

/-- C92. Entities are found in lists by their indexes and variables. -/
theorem C92_entities : Answers (fun _ => True) SameSchemaOf (inList entityKeys) :=
  list_answers sameSchema_refl fun _ _ _ _ => ok_cases entityDunderEq_iff

/-- C92, in part. Entities are found in sets and dictionaries if one text object stands for each id. Missing: ids that are equal but other
objects, as in entity sets that were read from files (`C92_entities_violated`). -/
theorem C92_entities_partial (obj : String → Nat) :
    Answers (fun e => e.obj = obj e.id ∧ e.vars ≠ []) SameSchemaOf (inSet entityKeys) ∧
      HasOnce (fun e => e.obj = obj e.id ∧ e.vars ≠ []) SameSchemaOf (pySet entityKeys) := by
  have hc : ∀ a b : BuildEnt, a.obj = obj a.id ∧ a.vars ≠ [] → b.obj = obj b.id ∧ b.vars ≠ [] → SameSchemaOf a b → (a.obj : Int) = b.obj := by
    intro a b ha hb h
    rw [ha.1, hb.1, h.2.2.2.2.2 ha.2]
  exact ⟨set_answers (h := fun a => (a.obj : Int)) (fun _ => rfl) sameSchema_refl hc fun _ _ _ _ _ => ok_cases entityDunderEq_iff,
    set_once (h := fun a => (a.obj : Int)) (fun _ => rfl) sameSchema_refl hc fun _ _ _ _ _ => ok_cases entityDunderEq_iff⟩

namespace KeysExample
def customers : BuildEnt := { id := "customers", obj := 1, index := "id", timeIndex := none, secondary := [], vars := [("id", "Index"), ("age", "Numeric")] }
/-- The same entity, read from a file. -/
def loaded : BuildEnt := { customers with obj := 2 }
def cust : Relationship := ⟨"customers", "id", "sessions", "cid"⟩
def sub (a b : String) : Bool := a == b || b == "Variable"
def feat (e : BuildEnt) (n : String) : BFeat := ⟨e, n, "Numeric", 1⟩
end KeysExample
open KeysExample

/-- C92 fails for entities in sets: an entity is equal to the one that is the only member, and not in the set; the set of both has two
members. -/
theorem C92_entities_violated :
    SameSchemaOf customers loaded ∧ inList entityKeys [⟨0, customers⟩] ⟨1, loaded⟩ = .ok true ∧ inSet entityKeys [⟨0, customers⟩] ⟨1, loaded⟩ = .ok false ∧
      (pySet entityKeys [⟨0, customers⟩, ⟨1, loaded⟩]).map List.length = .ok 2 :=
  ⟨⟨rfl, rfl, rfl, rfl, fun _ => .rfl, fun _ => rfl⟩, by decide +kernel, by decide +kernel, by decide +kernel⟩

/-! ## Features -/

theorem sameEnt_self (e : BuildEnt) : sameEnt e e = true := by
  simp [sameEnt]

theorem featureEq_one {sub : String → String → Bool} {text : String → Int} {e : BuildEnt} {f g : BFeat} (hf : OneOf sub e f) (hg : OneOf sub e g) :
    (featureKeys sub text).eq f g = .ok true := by
  obtain ⟨f1, f2, f3⟩ := hf
  obtain ⟨g1, g2, g3⟩ := hg
  have e1 : ¬(1 < f.outputs) := by omega
  have e2 : ¬(1 < g.outputs) := by omega
  simp [featureKeys, handTrans, checkBases, checkFeatures, checkFeature, f1, g1, sameEnt_self, e1, e2, inputsOk, equalPrim, f3, g3]

/-- C92, in part. Features of one entity are found in sets and dictionaries by their names, if different texts have different hashes and the
features have one output. Missing: features of several entities (`C92_feature_sets_violated`), lists (`C92_feature_lists_violated`). -/
theorem C92_features_partial (sub : String → String → Bool) (text : String → Int) (ht : ∀ s t, text s = text t → s = t) (e : BuildEnt) :
    Answers (OneOf sub e) (fun f g => f.name = g.name) (inSet (featureKeys sub text)) ∧
      HasOnce (OneOf sub e) (fun f g => f.name = g.name) (pySet (featureKeys sub text)) := by
  have hc : ∀ f g : BFeat, OneOf sub e f → OneOf sub e g → f.name = g.name → text (f.name ++ f.ent.id) = text (g.name ++ g.ent.id) := by
    intro f g hf hg h
    rw [h, hf.1, hg.1]
  have he : ∀ f g : BFeat, OneOf sub e f → OneOf sub e g → text (f.name ++ f.ent.id) = text (g.name ++ g.ent.id) →
      ((featureKeys sub text).eq f g = .ok true ∧ f.name = g.name) ∨ ((featureKeys sub text).eq f g = .ok false ∧ ¬f.name = g.name) := by
    intro f g hf hg h
    have h := ht _ _ h
    rw [hf.1, hg.1] at h
    refine .inl ⟨featureEq_one hf hg, ?_⟩
    have := congrArg String.toList h
    simp only [String.toList_append] at this
    exact String.toList_injective (List.append_cancel_right this)
  exact ⟨set_answers (h := fun f => text (f.name ++ f.ent.id)) (fun _ => rfl) (fun _ => rfl) hc he,
    set_once (h := fun f => text (f.name ++ f.ent.id)) (fun _ => rfl) (fun _ => rfl) hc he⟩

/-- C92 fails for features in lists: every feature is in every list of features of its entity, unless the list is empty. -/
theorem C92_feature_lists_violated (sub : String → String → Bool) (text : String → Int) (e : BuildEnt) (l : List (Ref BFeat)) (x : Ref BFeat)
    (hl : l ≠ []) (hp : ∀ m ∈ x :: l, OneOf sub e m.val) : inList (featureKeys sub text) l x = .ok true := by
  match l, hl, hp with
  | m :: l, _, hp =>
    have : meets (featureKeys sub text) m x = .ok true := by
      unfold meets
      split
      · rfl
      · exact featureEq_one (hp m (by simp)) (hp x (by simp))
    unfold inList
    rw [this]

/-- C92 fails for features in sets, whatever the hash of texts: asking for the feature `ab` of `c` in the set of `a` of `bc` raises an error. -/
theorem C92_feature_sets_violated (text : String → Int) :
    let bc : BuildEnt := { customers with id := "bc" }
    let c : BuildEnt := { customers with id := "c", obj := 2 }
    inSet (featureKeys KeysExample.sub text) [⟨0, feat bc "a"⟩] ⟨1, feat c "ab"⟩ = .error .assertionError := by
  intro bc c
  have h : "ab" ++ "c" = "a" ++ "bc" := by decide
  have h1 : (featureKeys KeysExample.sub text).eq (feat bc "a") (feat c "ab") = .error .assertionError := rfl
  have h2 : sameHash (featureKeys KeysExample.sub text) (text ("ab" ++ "c")) ⟨0, feat bc "a"⟩ = true := by
    show (text ("a" ++ "bc") == text ("ab" ++ "c")) = true
    rw [h]
    exact beq_self_eq_true _
  show inList _ (List.filter (sameHash _ (text ("ab" ++ "c"))) [_]) _ = _
  rw [List.filter_cons, if_pos h2]
  unfold inList meets
  rw [if_neg (by decide), h1]

/-! ## The hypotheses are met -/

/-- A relationship, given again. -/
example : inSet (relationshipKeys fun l => l.length) [⟨0, cust⟩] ⟨1, cust⟩ = .ok true := by
  rcases (C92_relationships fun l => l.length).2.1 [⟨0, cust⟩] ⟨1, cust⟩ (fun a ha b hb h => by
    simp only [List.mem_cons, List.not_mem_nil, or_false] at ha hb
    rcases ha with rfl | rfl <;> rcases hb with rfl | rfl <;> rfl) (fun _ _ => trivial) with h | h
  · exact h.1
  · exact absurd ⟨_, List.mem_cons_self, rfl⟩ h.2

example : ClassOrder KeysExample.sub := by
  refine ⟨fun c => by simp [KeysExample.sub], fun c d h1 h2 => ?_⟩
  simp only [KeysExample.sub, Bool.or_eq_true, beq_iff_eq] at h1 h2
  rcases h1 with h1 | h1
  · exact h1
  · rcases h2 with h2 | h2
    · exact h2.symm
    · rw [h1, h2]

/-- Two columns of one entity are two members of a set, and each is in a list of the other. -/
example : OneOf KeysExample.sub customers (feat customers "age") ∧ OneOf KeysExample.sub customers (feat customers "id") ∧
    inList (featureKeys KeysExample.sub fun s => s.length) [⟨0, feat customers "age"⟩] ⟨1, feat customers "id"⟩ = .ok true ∧
    inSet (featureKeys KeysExample.sub fun s => s.length) [⟨0, feat customers "age"⟩] ⟨1, feat customers "id"⟩ = .ok false ∧
    customers.obj = (fun _ => 1) customers.id ∧ customers.vars ≠ [] := by
  refine ⟨⟨rfl, by decide, by decide⟩, ⟨rfl, by decide, by decide⟩, ?_, by decide +kernel, rfl, by decide⟩
  exact C92_feature_lists_violated KeysExample.sub _ customers _ _ (by simp) (fun m hm => by
    simp only [List.mem_cons, List.not_mem_nil, or_false] at hm
    rcases hm with rfl | rfl <;> exact ⟨rfl, by decide, by decide⟩)

end FT
