import Verif.Model.LastTime
import Verif.Spec.LastTime
import Verif.Lemmas.EntitySetEq
/-! # Lemmas about last time indexes -/
namespace FT
open Spec

theorem isLatest_congr {P Q : Int → Prop} (h : ∀ m, P m ↔ Q m) {v : Val} (hv : IsLatest P v) : IsLatest Q v := by
  have : P = Q := funext fun m => propext (h m)
  exact this ▸ hv

theorem isLatest_unique {P : Int → Prop} {a b : Val} (ha : IsLatest P a) (hb : IsLatest P b) : a = b := by
  cases a <;> cases b <;> simp_all [IsLatest]
  exact Int.le_antisymm (hb.2 _ ha.1) (ha.2 _ hb.1)

/-- A set of times after 1800 and its latest element. -/
theorem fillTime_spec {P : Int → Prop} {a : Val} (ha : IsLatest P a) (hP : ∀ m, P m → year1800 < m) :
    (∀ m, P m → m ≤ fillTime a) ∧ (fillTime a = year1800 ∧ (∀ m, ¬ P m) ∨ year1800 < fillTime a ∧ P (fillTime a)) := by
  cases a with
  | null => exact ⟨fun m hm => absurd hm (ha m), .inl ⟨rfl, ha⟩⟩
  | num n => exact ⟨ha.2, .inr ⟨hP _ ha.1, ha.1⟩⟩
  | str s => exact absurd ha id
  | bool b => exact absurd ha id

theorem isLatest_laterTime {P Q : Int → Prop} {a b : Val} (ha : IsLatest P a) (hb : IsLatest Q b) (hP : ∀ m, P m → year1800 < m)
    (hQ : ∀ m, Q m → year1800 < m) : IsLatest (fun m => P m ∨ Q m) (laterTime a b) := by
  obtain ⟨a1, a2⟩ := fillTime_spec ha hP
  obtain ⟨b1, b2⟩ := fillTime_spec hb hQ
  unfold laterTime
  split
  · rename_i h
    have hA : ∀ m, ¬ P m := by
      rcases a2 with a2 | a2
      · exact a2.2
      · have := a2.1; omega
    have hB : ∀ m, ¬ Q m := by
      rcases b2 with b2 | b2
      · exact b2.2
      · have := b2.1; omega
    intro m hm
    rcases hm with hm | hm
    · exact hA m hm
    · exact hB m hm
  · rename_i h
    refine ⟨?_, ?_⟩
    · by_cases hle : fillTime a ≤ fillTime b
      · rw [Int.max_eq_right hle] at h ⊢
        rcases b2 with b2 | b2
        · exact absurd b2.1 h
        · exact .inr b2.2
      · have hle' : fillTime b ≤ fillTime a := by omega
        rw [Int.max_eq_left hle'] at h ⊢
        rcases a2 with a2 | a2
        · exact absurd a2.1 h
        · exact .inl a2.2
    · intro k hk
      rcases hk with hk | hk
      · have := a1 k hk; omega
      · have := b1 k hk; omega

/-! ### The latest child row -/

theorem byTime_iff (a b : Val × Val) : byTime a b = true ↔ if a.2 = b.2 then ValLe a.1 b.1 else ValLe a.2 b.2 := by
  unfold byTime
  split <;> exact sortLe_iff _ _

theorem byTime_total (a b : Val × Val) : byTime a b = true ∨ byTime b a = true := by
  rw [byTime_iff, byTime_iff]
  by_cases h : a.2 = b.2
  · rw [if_pos h, if_pos h.symm]; exact valLe_total _ _
  · rw [if_neg h, if_neg (Ne.symm h)]; exact valLe_total _ _

theorem byTime_trans (a b c : Val × Val) (h1 : byTime a b = true) (h2 : byTime b c = true) : byTime a c = true := by
  rw [byTime_iff] at *
  by_cases hab : a.2 = b.2
  · rw [if_pos hab] at h1
    by_cases hbc : b.2 = c.2
    · rw [if_pos hbc] at h2
      rw [if_pos (hab.trans hbc)]
      exact valLe_trans h1 h2
    · rw [if_neg hbc] at h2
      rw [if_neg (by rw [hab]; exact hbc), hab]
      exact h2
  · rw [if_neg hab] at h1
    by_cases hbc : b.2 = c.2
    · rw [if_neg (by rw [← hbc]; exact hab), ← hbc]
      exact h1
    · rw [if_neg hbc] at h2
      have hac : a.2 ≠ c.2 := by
        intro h
        rw [← h] at h2
        exact hab (valLe_antisymm h1 h2)
      rw [if_neg hac]
      exact valLe_trans h1 h2

theorem valLe_refl (a : Val) : ValLe a a := by
  rcases valLe_total a a with h | h <;> exact h

theorem byTime_le {a b : Val × Val} (h : byTime a b = true) : ValLe a.2 b.2 := by
  rw [byTime_iff] at h
  split at h
  · rename_i he; rw [he]; exact valLe_refl _
  · exact h

theorem last_of_sorted {α : Type} {le : α → α → Bool} {l : List α} (hs : l.Pairwise fun x y => le x y = true) (hr : ∀ a, le a a = true)
    {p : α → Bool} {a : α} (h : l.reverse.find? p = some a) : a ∈ l ∧ p a = true ∧ ∀ b ∈ l, p b = true → le b a = true := by
  refine ⟨List.mem_reverse.mp (List.mem_of_find?_eq_some h), List.find?_some h, ?_⟩
  rw [List.find?_eq_some_iff_append] at h
  obtain ⟨_, as, bs, he, hn⟩ := h
  have he' : l = bs.reverse ++ a :: as.reverse := by
    have := congrArg List.reverse he
    simpa using this
  intro b hb hpb
  rw [he'] at hb hs
  rw [List.pairwise_append] at hs
  rcases List.mem_append.mp hb with hb | hb
  · exact hs.2.2 b hb a (List.mem_cons_self ..)
  · rcases List.mem_cons.mp hb with rfl | hb
    · exact hr _
    · have := hn b (List.mem_reverse.mp hb)
      rw [hpb] at this; cases this

/-- The latest child row, when the child rows have their last times and all or none of those of a parent have one. -/
theorem lastChild_spec {α : Type} (rows : List α) (link val : α → Val) (T : α → Int → Prop) (hv : ∀ s ∈ rows, IsLatest (T s) (val s)) (k : Val)
    (hu : ∀ s ∈ rows, ∀ s' ∈ rows, link s = k → link s' = k → (∃ m, T s m) → ∃ m, T s' m) :
    IsLatest (fun m => ∃ s ∈ rows, link s = k ∧ T s m) (lastChild (rows.map fun s => (link s, val s)) k) := by
  unfold lastChild
  have hsort := isort_sorted byTime byTime_total byTime_trans (rows.map fun s => (link s, val s))
  have hperm := isort_perm byTime (rows.map fun s => (link s, val s))
  have hrefl : ∀ a, byTime a a = true := fun a => by rcases byTime_total a a with h | h <;> exact h
  split
  · rename_i p hp
    obtain ⟨h1, h2, h3⟩ := last_of_sorted hsort hrefl hp
    obtain ⟨s, hs, rfl⟩ := List.mem_map.mp (hperm.mem_iff.mp h1)
    have hk : link s = k := of_decide_eq_true h2
    have hmax : ∀ s' ∈ rows, link s' = k → ValLe (val s') (val s) := by
      intro s' hs' hk'
      exact byTime_le (h3 (link s', val s') (hperm.mem_iff.mpr (List.mem_map.mpr ⟨s', hs', rfl⟩)) (decide_eq_true hk'))
    have hvs := hv s hs
    show IsLatest _ (val s)
    cases hval : val s with
    | null =>
      rw [hval] at hvs
      rintro m ⟨s', hs', hk', hm⟩
      obtain ⟨m', hm'⟩ := hu s' hs' s hs hk' hk ⟨m, hm⟩
      exact hvs m' hm'
    | num n =>
      rw [hval] at hvs
      refine ⟨⟨s, hs, hk, hvs.1⟩, ?_⟩
      rintro m ⟨s', hs', hk', hm⟩
      have hle := hmax s' hs' hk'
      have hvs' := hv s' hs'
      rw [hval] at hle
      cases hval' : val s' with
      | null => rw [hval'] at hvs'; exact absurd hm (hvs' m)
      | num n' =>
        rw [hval'] at hvs' hle
        have h4 := hvs'.2 m hm
        have h5 : n' ≤ n := by simpa [ValLe] using hle
        omega
      | str _ => rw [hval'] at hvs'; exact absurd hvs' id
      | bool _ => rw [hval'] at hvs'; exact absurd hvs' id
    | str _ => rw [hval] at hvs; exact absurd hvs id
    | bool _ => rw [hval] at hvs; exact absurd hvs id
  · rename_i hp
    rintro m ⟨s, hs, hk, hm⟩
    rw [List.find?_eq_none] at hp
    exact hp (link s, val s) (List.mem_reverse.mpr (hperm.mem_iff.mpr (List.mem_map.mpr ⟨s, hs, rfl⟩))) (decide_eq_true hk)

/-! ### One entity -/

theorem mem_ltiChildren {rels : List Relationship} {e c : String} : c ∈ ltiChildren rels e ↔ ∃ r ∈ rels, r.parentE = e ∧ r.childE = c := by
  unfold ltiChildren
  simp only [List.mem_map, List.mem_filter, beq_iff_eq]
  constructor
  · rintro ⟨r, ⟨h1, h2⟩, h3⟩; exact ⟨r, h1, h2, h3⟩
  · rintro ⟨r, h1, h2, h3⟩; exact ⟨r, ⟨h1, h2⟩, h3⟩

theorem linkVar_of_single {es : ESet} (ho : Orderly es) {rel : Relationship} (hr : rel ∈ es.rels) :
    linkVar es.rels rel.parentE rel.childE = some rel.childV := by
  unfold linkVar
  cases h : es.rels.reverse.find? fun r => r.parentE == rel.parentE && r.childE == rel.childE with
  | none =>
    rw [List.find?_eq_none] at h
    have := h rel (List.mem_reverse.mpr hr)
    simp at this
  | some r =>
    have h1 := List.mem_reverse.mp (List.mem_of_find?_eq_some h)
    have h2 := List.find?_some h
    simp only [Bool.and_eq_true, beq_iff_eq] at h2
    rw [ho.single r h1 rel hr h2.1 h2.2]; rfl

theorem hasTime_after {es : ESet} (ho : Orderly es) {e : String} {r : Row} {m : Int} (h : HasTime es e r m) : year1800 < m := by
  induction h with
  | own hx hr ht hm =>
    rcases ho.times _ hx _ ht _ hr with h | ⟨k, hk, hlt⟩
    · rw [hm] at h; cases h
    · rw [hm] at hk; cases hk; exact hlt
  | child _ _ _ _ _ _ _ _ _ ih => exact ih

/-- The own time of a row. -/
def OwnTime (x : Entity) (r : Row) (m : Int) : Prop := ∃ t, x.timeIndex = some t ∧ r t = .num m

/-- A last time index on its way: it takes the row's own time into account, and only times that count. -/
def LtiPart (es : ESet) (x : Entity) (P : Row → Int → Prop) (l : Lti) : Prop :=
  ∃ v : Row → Val, l = x.df.rows.map (fun r => (r x.index, v r)) ∧ ∀ r ∈ x.df.rows, IsLatest (P r) (v r) ∧
    (∀ m, OwnTime x r m → P r m) ∧ ∀ m, P r m → HasTime es x.id r m

theorem ownTimes_part {es : ESet} (ho : Orderly es) {x : Entity} (hx : x ∈ es.entities) : ∃ P, LtiPart es x P (ownTimes x) := by
  refine ⟨fun r m => OwnTime x r m, fun r => (match x.timeIndex with | some t => r t | none => .null), rfl, fun r hr => ⟨?_, fun _ h => h, ?_⟩⟩
  · cases ht : x.timeIndex with
    | none => rintro m ⟨t, h, _⟩; rw [ht] at h; cases h
    | some t =>
      show IsLatest _ (r t)
      rcases ho.times x hx t ht r hr with h | ⟨k, hk, _⟩
      · rw [h]
        rintro m ⟨t', h', h2⟩
        rw [ht] at h'; cases h'; rw [h] at h2; cases h2
      · rw [hk]
        refine ⟨⟨t, ht, hk⟩, ?_⟩
        rintro m ⟨t', h', h2⟩
        rw [ht] at h'; cases h'; rw [hk] at h2; cases h2; exact Int.le_refl _
  · rintro m ⟨t, ht, hm⟩
    exact .own hx hr ht hm

theorem updateFrom_part {es : ESet} (ho : Orderly es) {x c : Entity} (hx : x ∈ es.entities) (hc : c ∈ es.entities) {rel : Relationship}
    (hrel : rel ∈ es.rels) (hp : rel.parentE = x.id) (hch : rel.childE = c.id) {cl l : Lti} (hcl : LtiOk es c cl) {P : Row → Int → Prop}
    (hl : LtiPart es x P l) :
    LtiPart es x (fun r m => (∃ s ∈ c.df.rows, s rel.childV = r x.index ∧ HasTime es c.id s m) ∨ P r m) (updateFrom c rel.childV cl l) := by
  obtain ⟨w, rfl, hw⟩ := hcl
  obtain ⟨v, rfl, hv⟩ := hl
  have hzip : (c.df.rows.map fun r => r rel.childV).zip ((c.df.rows.map fun r => (r c.index, w r)).map fun p => p.2) =
      c.df.rows.map fun s => (s rel.childV, w s) := by
    simp only [List.map_map]
    induction c.df.rows with
    | nil => rfl
    | cons a l ih => simp [ih]
  refine ⟨fun r => laterTime (lastChild (c.df.rows.map fun s => (s rel.childV, w s)) (r x.index)) (v r), ?_, ?_⟩
  · unfold updateFrom
    rw [hzip]
    simp only [List.map_map]
    rfl
  · intro r hr
    obtain ⟨h1, h2, h3⟩ := hv r hr
    refine ⟨?_, fun m hm => .inr (h2 m hm), ?_⟩
    · refine isLatest_laterTime (lastChild_spec c.df.rows (fun s => s rel.childV) w (fun s => HasTime es c.id s) hw (r x.index) ?_) h1 ?_ ?_
      · intro s hs s' hs' e1 e2
        exact ho.uniform rel hrel c hc hch.symm s hs s' hs' (e1.trans e2.symm)
      · rintro m ⟨s, _, _, hm⟩; exact hasTime_after ho hm
      · intro m hm; exact hasTime_after ho (h3 m hm)
    · intro m hm
      rcases hm with ⟨s, hs, he, hm⟩ | hm
      · exact .child hx hr hc hrel hp hch hs he hm
      · exact h3 m hm

theorem updateAll_part {es : ESet} (hwire : Wired es) (ho : Orderly es) {x : Entity} (hx : x ∈ es.entities) {lti : String → Option Lti} {cs : List String}
    (hcs : ∀ c ∈ cs, ∃ rel ∈ es.rels, rel.parentE = x.id ∧ rel.childE = c)
    (hlti : ∀ c ∈ cs, ∃ y l, es.get? c = some y ∧ lti c = some l ∧ LtiOk es y l) {P : Row → Int → Prop} {l : Lti} (hl : LtiPart es x P l) :
    ∃ Q, LtiPart es x Q (updateAll es lti x.id cs l) ∧ (∀ r m, P r m → Q r m) ∧
      ∀ r ∈ x.df.rows, ∀ rel ∈ es.rels, rel.parentE = x.id → rel.childE ∈ cs → ∀ c ∈ es.entities, c.id = rel.childE →
        ∀ s ∈ c.df.rows, s rel.childV = r x.index → ∀ m, HasTime es c.id s m → Q r m := by
  induction cs generalizing P l with
  | nil => exact ⟨P, hl, fun _ _ h => h, by simp⟩
  | cons c cs ih =>
    obtain ⟨rel, hrel, hp, hch⟩ := hcs c (List.mem_cons_self ..)
    obtain ⟨y, cl, hy, hcl, hok⟩ := hlti c (List.mem_cons_self ..)
    have hyc := get?_mem hy
    have hlink : linkVar es.rels x.id c = some rel.childV := by rw [← hp, ← hch]; exact linkVar_of_single ho hrel
    have hstep := updateFrom_part ho hx hyc.1 hrel hp (hch.trans hyc.2.symm) hok hl
    obtain ⟨Q, h1, h2, h3⟩ := ih (fun c' h => hcs c' (List.mem_cons_of_mem _ h)) (fun c' h => hlti c' (List.mem_cons_of_mem _ h)) hstep
    refine ⟨Q, ?_, fun r m h => h2 r m (.inr h), ?_⟩
    · simp only [updateAll, hy, hlink, hcl]; exact h1
    · intro r hr rel' hrel' hp' hm' c' hc' hid' s hs he m hm
      by_cases hin : rel'.childE ∈ cs
      · exact h3 r hr rel' hrel' hp' hin c' hc' hid' s hs he m hm
      · rcases List.mem_cons.mp hm' with h | h
        · have : rel' = rel := ho.single rel' hrel' rel hrel (hp'.trans hp.symm) (h.trans hch.symm)
          subst this
          have hcy : c' = y := by
            have e1 := get?_of_mem hwire.ids hc'
            rw [hid', h, hy] at e1
            exact (Option.some.inj e1).symm
          subst hcy
          exact h2 r m (.inl ⟨s, hs, he, hm⟩)
        · exact absurd h hin

theorem entity_eq_of_id {es : ESet} (hw : Wired es) {x y : Entity} (hx : x ∈ es.entities) (hy : y ∈ es.entities) (h : x.id = y.id) : x = y := by
  have h1 := get?_of_mem hw.ids hx
  have h2 := get?_of_mem hw.ids hy
  rw [h, h2] at h1
  exact (Option.some.inj h1).symm

theorem hasTime_inv {es : ESet} (hw : Wired es) {x : Entity} (hx : x ∈ es.entities) {r : Row} {m : Int} (h : HasTime es x.id r m) :
    OwnTime x r m ∨ ∃ rel ∈ es.rels, rel.parentE = x.id ∧ ∃ c ∈ es.entities, c.id = rel.childE ∧ ∃ s ∈ c.df.rows, s rel.childV = r x.index ∧
      HasTime es c.id s m := by
  generalize hid : x.id = e at h
  cases h with
  | own hx' hr ht hm =>
    have := entity_eq_of_id hw hx hx' hid
    subst this
    exact .inl ⟨_, ht, hm⟩
  | child hx' hr hc hrel hp hch hs hl h =>
    have := entity_eq_of_id hw hx hx' hid
    subst this
    exact .inr ⟨_, hrel, hp, _, hc, hch.symm, _, hs, hl, h⟩

/-- An entity whose children are done is done rightly. -/
theorem updateAll_ok {es : ESet} (hwire : Wired es) (ho : Orderly es) {x : Entity} (hx : x ∈ es.entities) {lti : String → Option Lti}
    (hlti : ∀ c ∈ ltiChildren es.rels x.id, ∃ y l, es.get? c = some y ∧ lti c = some l ∧ LtiOk es y l) {P : Row → Int → Prop} {l : Lti}
    (hl : LtiPart es x P l) : LtiOk es x (updateAll es lti x.id (ltiChildren es.rels x.id) l) := by
  obtain ⟨Q, ⟨v, hv, hq⟩, hsub, hall⟩ := updateAll_part hwire ho hx (fun c hc => mem_ltiChildren.mp hc) hlti hl
  refine ⟨v, hv, fun r hr => ?_⟩
  obtain ⟨h1, h2, h3⟩ := hq r hr
  refine isLatest_congr (fun m => ⟨h3 m, fun h => ?_⟩) h1
  rcases hasTime_inv hwire hx h with h | ⟨rel, hrel, hp, c, hc, hid, s, hs, he, h⟩
  · exact h2 m h
  · exact hall r hr rel hrel hp (mem_ltiChildren.mpr ⟨rel, hrel, hp, rfl⟩) c hc hid s hs he m h

/-! ### The loop -/

/-- What holds of the loop's state. -/
structure LtiInv (es : ESet) (old : String → Option Lti) (st : LtiState) : Prop where
  kept : ∀ e x l, es.get? e = some x → old e = some l → LtiOk es x l → st.lti e = some l
  done : ∀ e ∈ st.explored, ∃ x l, es.get? e = some x ∧ st.lti e = some l ∧ LtiOk es x l
  todo : ∀ e l x, st.lti e = some l → es.get? e = some x → ∃ P, LtiPart es x P l

theorem ltiOk_part {es : ESet} {x : Entity} (hx : x ∈ es.entities) {l : Lti} (h : LtiOk es x l) : ∃ P, LtiPart es x P l := by
  obtain ⟨v, hv, h⟩ := h
  exact ⟨fun r => HasTime es x.id r, v, hv, fun r hr => ⟨h r hr, fun m ⟨t, ht, hm⟩ => .own hx hr ht hm, fun _ h => h⟩⟩

theorem ltiOk_unique {es : ESet} {x : Entity} {l l' : Lti} (h : LtiOk es x l) (h' : LtiOk es x l') : l = l' := by
  obtain ⟨v, rfl, hv⟩ := h
  obtain ⟨v', rfl, hv'⟩ := h'
  apply List.map_congr_left
  intro r hr
  rw [isLatest_unique (hv r hr) (hv' r hr)]

theorem ltiRound_inv {es : ESet} {old : String → Option Lti} (hwire : Wired es) (ho : Orderly es) {st : LtiState} {e : String} {x : Entity} {q : List String}
    (hx : es.get? e = some x) (h : LtiInv es old st) : LtiInv es old (ltiRound es e x q st) := by
  have hxe := get?_mem hx
  have hpart : ∃ P, LtiPart es x P ((st.lti e).getD (ownTimes x)) := by
    cases hl : st.lti e with
    | none => exact ownTimes_part ho hxe.1
    | some l => exact h.todo e l x hl hx
  unfold ltiRound
  simp only
  split
  · rename_i hall
    have hok : LtiOk es x (updateAll es st.lti e (ltiChildren es.rels e) ((st.lti e).getD (ownTimes x))) := by
      obtain ⟨P, hP⟩ := hpart
      have := updateAll_ok (lti := st.lti) hwire ho hxe.1 (fun c hc => by
        rw [hxe.2] at hc
        exact h.done c (by simpa using List.all_eq_true.mp hall c hc)) hP
      rw [hxe.2] at this; exact this
    constructor
    · intro e' y l hy ho' hl
      simp only
      split
      · rename_i hee; subst hee; rw [hx] at hy; cases hy
        rw [ltiOk_unique hl hok]
      · exact h.kept e' y l hy ho' hl
    · intro e' he'
      simp only [List.mem_append, List.mem_singleton] at he'
      by_cases hee : e' = e
      · subst hee; exact ⟨x, _, hx, if_pos rfl, hok⟩
      · rcases he' with he' | he'
        · obtain ⟨y, l, h1, h2, h3⟩ := h.done e' he'
          exact ⟨y, l, h1, by simp only [if_neg hee]; exact h2, h3⟩
        · exact absurd he' hee
    · intro e' l y hl hy
      simp only at hl
      split at hl
      · rename_i hee; subst hee; cases hl; rw [hx] at hy; cases hy; exact ltiOk_part hxe.1 hok
      · exact h.todo e' l y hl hy
  · constructor
    · intro e' y l hy ho' hl
      have := h.kept e' y l hy ho' hl
      simp only
      split
      · rename_i hee; subst hee; rw [this]; rfl
      · exact this
    · intro e' he'
      simp only at he'
      obtain ⟨y, l, h1, h2, h3⟩ := h.done e' he'
      by_cases hee : e' = e
      · subst hee
        refine ⟨y, l, h1, ?_, h3⟩
        simp only [if_pos]
        rw [h2]; rfl
      · exact ⟨y, l, h1, by simp only [if_neg hee]; exact h2, h3⟩
    · intro e' l y hl hy
      simp only at hl
      split at hl
      · rename_i hee; subst hee; cases hl; rw [hx] at hy; cases hy; exact hpart
      · exact h.todo e' l y hl hy

theorem ltiLoop_inv {es : ESet} {old : String → Option Lti} (hwire : Wired es) (ho : Orderly es) {todo : List String} {n : Nat} {st st' : LtiState} (h : LtiInv es old st)
    (hl : ltiLoop es todo n st = some st') : LtiInv es old st' ∧ ∀ e ∈ todo, e ∈ st'.explored := by
  induction n generalizing st with
  | zero => cases hl
  | succ n ih =>
    unfold ltiLoop at hl
    split at hl
    · rename_i hall
      cases hl
      exact ⟨h, fun e he => by simpa using List.all_eq_true.mp hall e he⟩
    · split at hl
      · cases hl
      · split at hl
        · cases hl
        · rename_i e q hq x hx
          exact ih (ltiRound_inv hwire ho hx h) hl

/-! ### The loop ends -/

/-- The queue of the loop. -/
structure QueueOk (es : ESet) (todo : List String) (st : LtiState) : Prop where
  nodup : st.queue.Nodup
  known : ∀ e ∈ st.queue, e ∈ es.entities.map Entity.id
  fresh : ∀ e ∈ st.queue, e ∉ st.explored
  todo : ∀ e ∈ todo, e ∈ st.queue ∨ e ∈ st.explored

/-- How many entities are unexplored, and how many of them are not queued. -/
def unexplored (es : ESet) (st : LtiState) : Nat := ((es.entities.map Entity.id).filter fun e => !st.explored.contains e).length
def unqueued (es : ESet) (st : LtiState) : Nat :=
  ((es.entities.map Entity.id).filter fun e => !st.explored.contains e && !st.queue.contains e).length

theorem filter_count_lt {α : Type} {p q : α → Bool} {l : List α} (h : ∀ a ∈ l, p a = true → q a = true) {a : α} (ha : a ∈ l) (hq : q a = true)
    (hp : p a = false) : (l.filter p).length < (l.filter q).length := by
  induction l with
  | nil => cases ha
  | cons b l ih =>
    have hle : (l.filter p).length ≤ (l.filter q).length := by
      clear ih ha
      induction l with
      | nil => simp
      | cons c l ih =>
        have ih' := ih fun a ha => h a (by
          rcases List.mem_cons.mp ha with rfl | ha
          · exact List.mem_cons_self ..
          · exact List.mem_cons_of_mem _ (List.mem_cons_of_mem _ ha))
        have hc := h c (List.mem_cons_of_mem _ (List.mem_cons_self ..))
        simp only [List.filter_cons]
        cases hpc : p c <;> cases hqc : q c <;> simp_all
        omega
    have hb := h b (List.mem_cons_self ..)
    rcases List.mem_cons.mp ha with rfl | ha
    · simp only [List.filter_cons, hq, hp]; simp; omega
    · have := ih (fun a ha => h a (List.mem_cons_of_mem _ ha)) ha
      simp only [List.filter_cons]
      cases hpb : p b <;> cases hqb : q b <;> simp_all
      omega

theorem min_exists {α : Type} (f : α → Nat) : ∀ {l : List α}, l ≠ [] → ∃ a ∈ l, ∀ b ∈ l, f a ≤ f b
  | [a], _ => ⟨a, by simp, by simp⟩
  | a :: b :: l, _ => by
    obtain ⟨c, hc, hmin⟩ := min_exists f (l := b :: l) (by simp)
    by_cases h : f a ≤ f c
    · refine ⟨a, List.mem_cons_self .., fun d hd => ?_⟩
      rcases List.mem_cons.mp hd with rfl | hd
      · exact Nat.le_refl _
      · exact Nat.le_trans h (hmin d hd)
    · refine ⟨c, List.mem_cons_of_mem _ hc, fun d hd => ?_⟩
      rcases List.mem_cons.mp hd with rfl | hd
      · omega
      · exact hmin d hd

/-- One round, as far as the queue goes: an entity is explored, or entities are queued that were not, or the first entity
goes to the end of the queue, and has an unexplored child there. -/
theorem ltiRound_queue {es : ESet} (hw : Wired es) {rank : String → Nat} (hr : ∀ r ∈ es.rels, rank r.childE < rank r.parentE)
    {todo : List String} {st : LtiState} {h : String} {q : List String} (hs : st.queue = h :: q) (hq : QueueOk es todo st) (x : Entity) :
    QueueOk es todo (ltiRound es h x q st) ∧
    (unexplored es (ltiRound es h x q st) < unexplored es st ∨
     unexplored es (ltiRound es h x q st) = unexplored es st ∧ unqueued es (ltiRound es h x q st) < unqueued es st ∨
     unexplored es (ltiRound es h x q st) = unexplored es st ∧ unqueued es (ltiRound es h x q st) = unqueued es st ∧
       (ltiRound es h x q st).queue = q ++ [h] ∧ ∃ c ∈ q, rank c < rank h) := by
  obtain ⟨hn, hk, hf, ht⟩ := hq
  rw [hs] at hn hk hf ht
  rw [List.nodup_cons] at hn
  unfold ltiRound
  simp only
  split
  · refine ⟨⟨hn.2, fun e he => hk e (List.mem_cons_of_mem _ he), ?_, ?_⟩, .inl ?_⟩
    · intro e he hm
      rcases List.mem_append.mp hm with hm | hm
      · exact hf e (List.mem_cons_of_mem _ he) hm
      · rw [List.mem_singleton] at hm; subst hm; exact hn.1 he
    · intro e he
      rcases ht e he with h' | h'
      · rcases List.mem_cons.mp h' with rfl | h'
        · right; simp
        · exact .inl h'
      · right; exact List.mem_append_left _ h'
    · unfold unexplored
      refine filter_count_lt ?_ (hk h (List.mem_cons_self ..)) (by simpa using hf h (List.mem_cons_self ..)) (by simp)
      intro a _ ha
      simp only [List.contains_append, Bool.not_or, Bool.and_eq_true] at ha
      exact ha.1
  · rename_i hnall
    have hA : ∀ a, a ∈ dedup ((ltiChildren es.rels h).filter fun c => !st.explored.contains c && !q.contains c) ↔
        (∃ r ∈ es.rels, r.parentE = h ∧ r.childE = a) ∧ a ∉ st.explored ∧ a ∉ q := by
      intro a
      rw [mem_dedup, List.mem_filter, mem_ltiChildren]
      simp
    have hself : ∀ r ∈ es.rels, r.parentE = h → r.childE ≠ h := by
      intro r hr' hp hc
      have := hr r hr'
      rw [hp, hc] at this; omega
    have hnA : h ∉ dedup ((ltiChildren es.rels h).filter fun c => !st.explored.contains c && !q.contains c) := by
      rw [hA]; rintro ⟨⟨r, hr', hp, hc⟩, _⟩; exact hself r hr' hp hc
    generalize hAe : dedup ((ltiChildren es.rels h).filter fun c => !st.explored.contains c && !q.contains c) = A at hA hnA
    refine ⟨⟨?_, ?_, ?_, ?_⟩, .inr ?_⟩
    · show (q ++ A ++ [h]).Nodup
      rw [List.nodup_append, List.nodup_append]
      refine ⟨⟨hn.2, ?_, ?_⟩, by simp, ?_⟩
      · rw [← hAe]; exact nodup_dedup _
      · intro a ha b hb hab
        subst hab
        exact ((hA a).mp hb).2.2 ha
      · intro a ha b hb hab
        rw [List.mem_singleton] at hb
        subst hab
        subst hb
        rcases List.mem_append.mp ha with ha | ha
        · exact hn.1 ha
        · exact hnA ha
    · intro e he
      rcases List.mem_append.mp he with he | he
      · rcases List.mem_append.mp he with he | he
        · exact hk e (List.mem_cons_of_mem _ he)
        · obtain ⟨⟨r, hr', _, hc⟩, _⟩ := (hA e).mp he
          rw [← hc]; exact hw.children r hr'
      · rw [List.mem_singleton] at he; subst he; exact hk _ (List.mem_cons_self ..)
    · intro e he
      rcases List.mem_append.mp he with he | he
      · rcases List.mem_append.mp he with he | he
        · exact hf e (List.mem_cons_of_mem _ he)
        · exact ((hA e).mp he).2.1
      · rw [List.mem_singleton] at he; subst he; exact hf _ (List.mem_cons_self ..)
    · intro e he
      rcases ht e he with h' | h'
      · left
        rcases List.mem_cons.mp h' with rfl | h'
        · simp
        · simp [h']
      · exact .inr h'
    · simp only [List.all_eq_true, Classical.not_forall] at hnall
      obtain ⟨c, hc, hce⟩ := hnall
      obtain ⟨r, hr', hp, hrc⟩ := mem_ltiChildren.mp hc
      have hce' : c ∉ st.explored := by simpa using hce
      cases A with
      | nil =>
        right
        have hcq : c ∈ q := Classical.byContradiction fun h' => by
          have := (hA c).mpr ⟨⟨r, hr', hp, hrc⟩, hce', h'⟩
          cases this
        refine ⟨rfl, ?_, by simp, c, hcq, by rw [← hp, ← hrc]; exact hr r hr'⟩
        unfold unqueued
        rw [hs]
        congr 1
        apply List.filter_congr
        intro a _
        simp only [List.append_nil, List.contains_append, List.contains_cons, List.contains_nil, Bool.or_false]
        rw [Bool.or_comm]
      | cons a A =>
        left
        refine ⟨rfl, ?_⟩
        obtain ⟨⟨r', hr1, _, hr2⟩, ha1, ha2⟩ := (hA a).mp (List.mem_cons_self ..)
        unfold unqueued
        rw [hs]
        have hah : a ≠ h := fun h' => hnA (h' ▸ List.mem_cons_self ..)
        refine filter_count_lt (a := a) ?_ (by rw [← hr2]; exact hw.children r' hr1) ?_ ?_
        · intro b _ hb
          simp at hb ⊢
          exact ⟨hb.1, hb.2.2.2.2, hb.2.1⟩
        · simp [ha1, ha2, hah]
        · simp

theorem ltiLoop_ends {es : ESet} (hw : Wired es) {rank : String → Nat} (hr : ∀ r ∈ es.rels, rank r.childE < rank r.parentE) {todo : List String} :
    ∀ (u w : Nat) (st : LtiState), QueueOk es todo st → unexplored es st ≤ u → unqueued es st ≤ w → ∃ n st', ltiLoop es todo n st = some st' := by
  have hgo : ∀ (st : LtiState) (h : String) (q : List String), QueueOk es todo st → st.queue = h :: q →
      (∀ x, es.get? h = some x → ∃ n st', ltiLoop es todo n (ltiRound es h x q st) = some st') → ∃ n st', ltiLoop es todo n st = some st' := by
    intro st h q hq hs hn
    by_cases hall : (todo.all fun e => st.explored.contains e) = true
    · exact ⟨1, st, by simp only [ltiLoop, if_pos hall]⟩
    · obtain ⟨x, hx, hid⟩ := List.mem_map.mp (hq.known h (by rw [hs]; exact List.mem_cons_self ..))
      have hg := get?_of_mem hw.ids hx
      rw [hid] at hg
      obtain ⟨n, st', hl⟩ := hn x hg
      refine ⟨n + 1, st', ?_⟩
      simp only [ltiLoop, if_neg hall, hs, hg]
      exact hl
  intro u
  induction u using Nat.strongRecOn with
  | _ u ihu =>
    intro w
    induction w using Nat.strongRecOn with
    | _ w ihw =>
    intro st hq hu hwq
    by_cases hne : st.queue = []
    · refine ⟨1, st, ?_⟩
      have hall : (todo.all fun e => st.explored.contains e) = true := by
        rw [List.all_eq_true]
        intro e he
        rcases hq.todo e he with h' | h'
        · rw [hne] at h'; cases h'
        · simpa using h'
      simp only [ltiLoop, if_pos hall]
    · obtain ⟨e, he, hmin⟩ := min_exists rank hne
      obtain ⟨pre, post, hsplit⟩ := List.append_of_mem he
      clear he hne
      induction pre generalizing post st with
      | nil =>
        refine hgo st e post hq hsplit fun x hx => ?_
        obtain ⟨h1, h2⟩ := ltiRound_queue hw hr hsplit hq x
        rcases h2 with h2 | ⟨h2, h3⟩ | ⟨h2, h3, h4, c, hc, hlt⟩
        · exact ihu _ (by omega) _ _ h1 (Nat.le_refl _) (Nat.le_refl _)
        · exact ihw _ (by omega) _ h1 (by omega) (Nat.le_refl _)
        · have := hmin c (by rw [hsplit]; exact List.mem_cons_of_mem _ hc)
          omega
      | cons h pre ih =>
        have hsplit' : st.queue = h :: (pre ++ e :: post) := hsplit
        refine hgo st h (pre ++ e :: post) hq hsplit' fun x hx => ?_
        obtain ⟨h1, h2⟩ := ltiRound_queue hw hr hsplit' hq x
        rcases h2 with h2 | ⟨h2, h3⟩ | ⟨h2, h3, h4, _⟩
        · exact ihu _ (by omega) _ _ h1 (Nat.le_refl _) (Nat.le_refl _)
        · exact ihw _ (by omega) _ h1 (by omega) (Nat.le_refl _)
        · refine ih _ h1 (by omega) (by omega) ?_ (post ++ [h]) (by rw [h4]; simp)
          intro b hb
          rw [h4] at hb
          refine hmin b ?_
          rw [hsplit']
          rcases List.mem_append.mp hb with hb | hb
          · exact List.mem_cons_of_mem _ hb
          · rw [List.mem_singleton] at hb; subst hb; exact List.mem_cons_self ..

/-- More fuel does not change the outcome. -/
theorem ltiLoop_mono {es : ESet} {todo : List String} {n k : Nat} {st st' : LtiState} (h : ltiLoop es todo n st = some st') (hk : n ≤ k) :
    ltiLoop es todo k st = some st' := by
  induction n generalizing st k with
  | zero => cases h
  | succ n ih =>
    obtain ⟨k, rfl⟩ : ∃ k', k = k' + 1 := ⟨k - 1, by omega⟩
    unfold ltiLoop at h ⊢
    split
    · rename_i hc; rw [if_pos hc] at h; exact h
    · rename_i hc
      rw [if_neg hc] at h
      split at h
      · cases h
      · rename_i e q hq
        split at h
        · cases h
        · exact ih h (by omega)

/-! ### The parents of the updated entities -/

theorem parentLoop_mono {rels : List Relationship} {n k : Nat} {q seen l : List String} (h : parentLoop rels n q seen = some l) (hk : n ≤ k) :
    parentLoop rels k q seen = some l := by
  induction n generalizing q seen k with
  | zero => cases q with
    | nil => cases k <;> exact h
    | cons => cases h
  | succ n ih =>
    obtain ⟨k, rfl⟩ : ∃ k', k = k' + 1 := ⟨k - 1, by omega⟩
    cases q with
    | nil => exact h
    | cons e q =>
      simp only [parentLoop] at h ⊢
      split
      · rename_i hc; rw [if_pos hc] at h; exact ih h (by omega)
      · rename_i hc; rw [if_neg hc] at h; exact ih h (by omega)

theorem parentLoop_spec {es : ESet} {updated : List String} {n : Nat} {q seen l : List String} (h : parentLoop es.rels n q seen = some l)
    (h1 : ∀ e ∈ updated, e ∈ q ∨ e ∈ seen) (h2 : ∀ e ∈ q, Above es updated e) (h3 : ∀ e ∈ seen, Above es updated e)
    (h4 : ∀ e ∈ seen, ∀ r ∈ es.rels, r.childE = e → r.parentE ∈ q ∨ r.parentE ∈ seen) (h5 : seen.Nodup) :
    l.Nodup ∧ ∀ e, e ∈ l ↔ Above es updated e := by
  induction n generalizing q seen with
  | zero => cases q with
    | nil =>
      cases h
      refine ⟨h5, fun e => ⟨h3 e, fun ha => ?_⟩⟩
      induction ha with
      | here h => rcases h1 _ h with h | h
                  · cases h
                  · exact h
      | parent _ hr hc ih => rcases h4 _ ih _ hr hc with h | h
                             · cases h
                             · exact h
    | cons => cases h
  | succ n ih =>
    cases q with
    | nil =>
      cases h
      refine ⟨h5, fun e => ⟨h3 e, fun ha => ?_⟩⟩
      induction ha with
      | here h => rcases h1 _ h with h | h
                  · cases h
                  · exact h
      | parent _ hr hc ih => rcases h4 _ ih _ hr hc with h | h
                             · cases h
                             · exact h
    | cons e q =>
      simp only [parentLoop] at h
      split at h
      · rename_i hc
        have hc' : e ∈ seen := by simpa using hc
        refine ih h ?_ (fun a ha => h2 a (List.mem_cons_of_mem _ ha)) h3 ?_ h5
        · intro a ha
          rcases h1 a ha with h | h
          · rcases List.mem_cons.mp h with rfl | h
            · exact .inr hc'
            · exact .inl h
          · exact .inr h
        · intro a ha r hr hce
          rcases h4 a ha r hr hce with h | h
          · rcases List.mem_cons.mp h with h | h
            · exact .inr (h ▸ hc')
            · exact .inl h
          · exact .inr h
      · rename_i hc
        have hc' : e ∉ seen := by simpa using hc
        have hmem : ∀ a, a ∈ (es.rels.filter fun r => r.childE == e).map (·.parentE) ↔ ∃ r ∈ es.rels, r.childE = e ∧ r.parentE = a := by
          intro a
          simp only [List.mem_map, List.mem_filter, beq_iff_eq]
          constructor
          · rintro ⟨r, ⟨h1, h2⟩, h3⟩; exact ⟨r, h1, h2, h3⟩
          · rintro ⟨r, h1, h2, h3⟩; exact ⟨r, ⟨h1, h2⟩, h3⟩
        have he : Above es updated e := h2 e (List.mem_cons_self ..)
        refine ih h ?_ ?_ ?_ ?_ ?_
        · intro a ha
          rcases h1 a ha with h | h
          · rcases List.mem_cons.mp h with rfl | h
            · right; simp
            · left; exact List.mem_append_left _ h
          · right; exact List.mem_append_left _ h
        · intro a ha
          rcases List.mem_append.mp ha with ha | ha
          · exact h2 a (List.mem_cons_of_mem _ ha)
          · obtain ⟨r, hr, hce, hp⟩ := (hmem a).mp ha
            rw [← hp]; exact .parent he hr hce
        · intro a ha
          rcases List.mem_append.mp ha with ha | ha
          · exact h3 a ha
          · rw [List.mem_singleton] at ha; exact ha ▸ he
        · intro a ha r hr hce
          rcases List.mem_append.mp ha with ha | ha
          · rcases h4 a ha r hr hce with h | h
            · rcases List.mem_cons.mp h with h | h
              · right; rw [h]; simp
              · left; exact List.mem_append_left _ h
            · right; exact List.mem_append_left _ h
          · rw [List.mem_singleton] at ha
            left
            exact List.mem_append_right _ ((hmem _).mpr ⟨r, hr, hce.trans ha, rfl⟩)
        · rw [List.nodup_append]
          refine ⟨h5, by simp, ?_⟩
          intro a ha b hb hab
          rw [List.mem_singleton] at hb
          subst hab; subst hb; exact hc' ha

theorem parentLoop_ends {rels : List Relationship} (univ : List String) (hp : ∀ r ∈ rels, r.parentE ∈ univ) :
    ∀ (u w : Nat) (q seen : List String), (∀ e ∈ q, e ∈ univ) → (univ.filter fun e => !seen.contains e).length ≤ u → q.length ≤ w →
      ∃ n l, parentLoop rels n q seen = some l := by
  intro u
  induction u using Nat.strongRecOn with
  | _ u ihu =>
    intro w
    induction w with
    | zero =>
      intro q seen _ _ hw
      have : q = [] := List.length_eq_zero_iff.mp (by omega)
      subst this
      exact ⟨0, seen, rfl⟩
    | succ w ihw =>
      intro q seen hq hu hw
      cases q with
      | nil => exact ⟨0, seen, rfl⟩
      | cons e q =>
        by_cases hc : seen.contains e = true
        · obtain ⟨n, l, h⟩ := ihw q seen (fun a ha => hq a (List.mem_cons_of_mem _ ha)) hu (by simpa using hw)
          exact ⟨n + 1, l, by simp only [parentLoop, if_pos hc]; exact h⟩
        · have hlt : (univ.filter fun a => !(seen ++ [e]).contains a).length < (univ.filter fun a => !seen.contains a).length := by
            refine filter_count_lt ?_ (hq e (List.mem_cons_self ..)) (by simpa using hc) (by simp)
            intro a _ ha
            simp only [List.contains_append, Bool.not_or, Bool.and_eq_true] at ha
            exact ha.1
          obtain ⟨n, l, h⟩ := ihu _ (by omega : (univ.filter fun a => !(seen ++ [e]).contains a).length < u) _
            (q ++ (rels.filter fun r => r.childE == e).map (·.parentE)) (seen ++ [e]) (by
              intro a ha
              rcases List.mem_append.mp ha with ha | ha
              · exact hq a (List.mem_cons_of_mem _ ha)
              · obtain ⟨r, hr, rfl⟩ := List.mem_map.mp ha
                exact hp r (List.mem_filter.mp hr).1) (Nat.le_refl _) (Nat.le_refl _)
          exact ⟨n + 1, l, by simp only [parentLoop, if_neg hc]; exact h⟩

end FT
