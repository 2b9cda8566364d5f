import Verif.Model.LastTimeDask
import Verif.Spec.LastTimeDask
import Verif.Lemmas.LastTime
/-! # Lemmas about last time indexes on Dask -/
namespace FT
open Spec

theorem linkVar_of_singleD {es : ESet} (ho : Dated es) {rel : Relationship} (hr : rel ∈ es.rels) :
    linkVar es.rels rel.parentE rel.childE = some rel.childV := by
  unfold linkVar
  cases h : es.rels.reverse.find? fun r => r.parentE == rel.parentE && r.childE == rel.childE with
  | none =>
    rw [List.find?_eq_none] at h
    have := h rel (List.mem_reverse.mpr hr)
    simp at this
  | some r =>
    have h1 := List.mem_reverse.mp (List.mem_of_find?_eq_some h)
    have h2 := List.find?_some h
    simp only [Bool.and_eq_true, beq_iff_eq] at h2
    rw [ho.single r h1 rel hr h2.1 h2.2]; rfl

theorem hasTime_afterD {es : ESet} (ho : Dated es) {e : String} {r : Row} {m : Int} (h : HasTime es e r m) : year1800 < m := by
  induction h with
  | own hx hr ht hm =>
    rcases ho.times _ hx _ ht _ hr with h | ⟨k, hk, hlt⟩
    · rw [hm] at h; cases h
    · rw [hm] at hk; cases hk; exact hlt
  | child _ _ _ _ _ _ _ _ _ ih => exact ih

theorem ownTimes_partD {es : ESet} (ho : Dated es) {x : Entity} (hx : x ∈ es.entities) : ∃ P, LtiPart es x P (ownTimes x) := by
  refine ⟨fun r m => OwnTime x r m, fun r => (match x.timeIndex with | some t => r t | none => .null), rfl, fun r hr => ⟨?_, fun _ h => h, ?_⟩⟩
  · cases ht : x.timeIndex with
    | none => rintro m ⟨t, h, _⟩; rw [ht] at h; cases h
    | some t =>
      show IsLatest _ (r t)
      rcases ho.times x hx t ht r hr with h | ⟨k, hk, _⟩
      · rw [h]
        rintro m ⟨t', h', h2⟩
        rw [ht] at h'; cases h'; rw [h] at h2; cases h2
      · rw [hk]
        refine ⟨⟨t, ht, hk⟩, ?_⟩
        rintro m ⟨t', h', h2⟩
        rw [ht] at h'; cases h'; rw [hk] at h2; cases h2; exact Int.le_refl _
  · rintro m ⟨t, ht, hm⟩
    exact .own hx hr ht hm

theorem isLatest_maxTime {P Q : Int → Prop} {a b : Val} (ha : IsLatest P a) (hb : IsLatest Q b) :
    IsLatest (fun m => P m ∨ Q m) (maxTime a b) := by
  cases a with
  | null => exact isLatest_congr (fun m => ⟨.inr, fun h => h.resolve_left (ha m)⟩) (show IsLatest Q (maxTime .null b) from hb)
  | num n =>
    cases b with
    | null => exact isLatest_congr (fun m => ⟨.inl, fun h => h.resolve_right (hb m)⟩) (show IsLatest P (maxTime (.num n) .null) from ha)
    | num k =>
      refine ⟨?_, ?_⟩
      · rcases Int.le_total n k with h | h
        · rw [Int.max_eq_right h]; exact .inr hb.1
        · rw [Int.max_eq_left h]; exact .inl ha.1
      · rintro m (h | h)
        · have := ha.2 m h; omega
        · have := hb.2 m h; omega
    | str s => exact absurd hb id
    | bool s => exact absurd hb id
  | str s => exact absurd ha id
  | bool s => exact absurd ha id

theorem foldl_maxTime {α : Type} (rows : List α) (val : α → Val) (T : α → Int → Prop) (hv : ∀ s ∈ rows, IsLatest (T s) (val s)) {P : Int → Prop}
    {a : Val} (ha : IsLatest P a) : IsLatest (fun m => P m ∨ ∃ s ∈ rows, T s m) ((rows.map val).foldl maxTime a) := by
  induction rows generalizing P a with
  | nil => exact isLatest_congr (fun m => ⟨.inl, fun h => h.resolve_right (by rintro ⟨s, hs, _⟩; cases hs)⟩) ha
  | cons s rows ih =>
    have h := ih (fun s' hs' => hv s' (List.mem_cons_of_mem _ hs')) (isLatest_maxTime ha (hv s (List.mem_cons_self ..)))
    refine isLatest_congr (fun m => ⟨?_, ?_⟩) h
    · rintro ((h | h) | ⟨s', hs', h⟩)
      · exact .inl h
      · exact .inr ⟨s, List.mem_cons_self .., h⟩
      · exact .inr ⟨s', List.mem_cons_of_mem _ hs', h⟩
    · rintro (h' | ⟨s', hs', h'⟩)
      · exact .inl (.inl h')
      · rcases List.mem_cons.mp hs' with rfl | hs'
        · exact .inl (.inr h')
        · exact .inr ⟨s', hs', h'⟩

theorem groupMax_spec {α : Type} (rows : List α) (link val : α → Val) (T : α → Int → Prop) (hv : ∀ s ∈ rows, IsLatest (T s) (val s)) (k : Val)
    (hk : k ≠ .null) : IsLatest (fun m => ∃ s ∈ rows, link s = k ∧ T s m) (groupMax (rows.map fun s => (link s, val s)) k) := by
  unfold groupMax
  rw [if_neg hk]
  have hf : ((rows.map fun s => (link s, val s)).filter fun p => decide (p.1 = k)).map (·.2) =
      (rows.filter fun s => decide (link s = k)).map val := by
    rw [List.filter_map, List.map_map]; rfl
  rw [hf]
  have h := foldl_maxTime (rows.filter fun s => decide (link s = k)) val T (fun s hs => hv s (List.mem_filter.mp hs).1)
    (P := fun _ => False) (a := .null) (fun _ h => h)
  refine isLatest_congr (fun m => ⟨?_, ?_⟩) h
  · rintro (h | ⟨s, hs, h⟩)
    · exact h.elim
    · exact ⟨s, (List.mem_filter.mp hs).1, of_decide_eq_true (List.mem_filter.mp hs).2, h⟩
  · rintro ⟨s, hs, e, h⟩
    exact .inr ⟨s, List.mem_filter.mpr ⟨hs, decide_eq_true e⟩, h⟩

theorem filter_unique_key {α : Type} (f : α → Val) {l : List α} (h : (l.map f).Nodup) {a : α} (ha : a ∈ l) : (l.filter fun b => decide (f b = f a)) = [a] := by
  induction l with
  | nil => cases ha
  | cons b l ih =>
    rw [List.map_cons, List.nodup_cons] at h
    rcases List.mem_cons.mp ha with rfl | ha
    · rw [List.filter_cons, if_pos (decide_eq_true rfl), List.filter_eq_nil_iff.mpr]
      intro c hc he
      exact h.1 (of_decide_eq_true he ▸ List.mem_map_of_mem hc)
    · rw [List.filter_cons, if_neg, ih h.2 ha]
      intro he
      exact h.1 ((of_decide_eq_true he).symm ▸ List.mem_map_of_mem ha)

theorem linkedTimes_eq (c : Entity) (v : String) (w : Row → Val) (h : (c.df.rows.map fun r => r c.index).Nodup) :
    linkedTimes c v (c.df.rows.map fun r => (r c.index, w r)) = c.df.rows.map fun s => (s v, w s) := by
  unfold linkedTimes
  rw [List.flatMap_map]
  have : ∀ rows : List Row, (∀ r ∈ rows, r ∈ c.df.rows) →
      (rows.flatMap fun a => (c.df.rows.filter fun r => decide (r c.index = a c.index)).map fun r => (r v, w a)) =
      rows.map fun s => (s v, w s) := by
    intro rows
    induction rows with
    | nil => intro _; rfl
    | cons a rows ih =>
      intro hm
      rw [List.flatMap_cons, List.map_cons, ih fun r hr => hm r (List.mem_cons_of_mem _ hr),
        filter_unique_key (fun r : Row => r c.index) h (hm a (List.mem_cons_self ..))]
      rfl
  exact this _ fun _ h => h

theorem updateFrom_partD {es : ESet} (ho : Dated es) {x c : Entity} (hx : x ∈ es.entities) (hc : c ∈ es.entities) {rel : Relationship}
    (hrel : rel ∈ es.rels) (hp : rel.parentE = x.id) (hch : rel.childE = c.id) {cl l : Lti} (hcl : LtiOk es c cl) {P : Row → Int → Prop}
    (hl : LtiPart es x P l) :
    LtiPart es x (fun r m => (∃ s ∈ c.df.rows, s rel.childV = r x.index ∧ HasTime es c.id s m) ∨ P r m) (updateFromDask c rel.childV cl l) := by
  obtain ⟨w, rfl, hw⟩ := hcl
  obtain ⟨v, rfl, hv⟩ := hl
  refine ⟨fun r => laterTime (groupMax (c.df.rows.map fun s => (s rel.childV, w s)) (r x.index)) (v r), ?_, ?_⟩
  · unfold updateFromDask
    rw [linkedTimes_eq c rel.childV w (ho.keys c hc)]
    simp only [List.map_map]
    rfl
  · intro r hr
    obtain ⟨h1, h2, h3⟩ := hv r hr
    refine ⟨?_, fun m hm => .inr (h2 m hm), ?_⟩
    · refine isLatest_laterTime (groupMax_spec c.df.rows (fun s => s rel.childV) w (fun s => HasTime es c.id s) hw (r x.index) (ho.present x hx r hr)) h1 ?_ ?_
      · rintro m ⟨s, _, _, hm⟩; exact hasTime_afterD ho hm
      · intro m hm; exact hasTime_afterD ho (h3 m hm)
    · intro m hm
      rcases hm with ⟨s, hs, he, hm⟩ | hm
      · exact .child hx hr hc hrel hp hch hs he hm
      · exact h3 m hm

theorem updateAll_partD {es : ESet} (hwire : Wired es) (ho : Dated es) {x : Entity} (hx : x ∈ es.entities) {lti : String → Option Lti} {cs : List String}
    (hcs : ∀ c ∈ cs, ∃ rel ∈ es.rels, rel.parentE = x.id ∧ rel.childE = c)
    (hlti : ∀ c ∈ cs, ∃ y l, es.get? c = some y ∧ lti c = some l ∧ LtiOk es y l) {P : Row → Int → Prop} {l : Lti} (hl : LtiPart es x P l) :
    ∃ Q, LtiPart es x Q (updateAllDask es lti x.id cs l) ∧ (∀ r m, P r m → Q r m) ∧
      ∀ r ∈ x.df.rows, ∀ rel ∈ es.rels, rel.parentE = x.id → rel.childE ∈ cs → ∀ c ∈ es.entities, c.id = rel.childE →
        ∀ s ∈ c.df.rows, s rel.childV = r x.index → ∀ m, HasTime es c.id s m → Q r m := by
  induction cs generalizing P l with
  | nil => exact ⟨P, hl, fun _ _ h => h, by simp⟩
  | cons c cs ih =>
    obtain ⟨rel, hrel, hp, hch⟩ := hcs c (List.mem_cons_self ..)
    obtain ⟨y, cl, hy, hcl, hok⟩ := hlti c (List.mem_cons_self ..)
    have hyc := get?_mem hy
    have hlink : linkVar es.rels x.id c = some rel.childV := by rw [← hp, ← hch]; exact linkVar_of_singleD ho hrel
    have hstep := updateFrom_partD ho hx hyc.1 hrel hp (hch.trans hyc.2.symm) hok hl
    obtain ⟨Q, h1, h2, h3⟩ := ih (fun c' h => hcs c' (List.mem_cons_of_mem _ h)) (fun c' h => hlti c' (List.mem_cons_of_mem _ h)) hstep
    refine ⟨Q, ?_, fun r m h => h2 r m (.inr h), ?_⟩
    · simp only [updateAllDask, hy, hlink, hcl]; exact h1
    · intro r hr rel' hrel' hp' hm' c' hc' hid' s hs he m hm
      by_cases hin : rel'.childE ∈ cs
      · exact h3 r hr rel' hrel' hp' hin c' hc' hid' s hs he m hm
      · rcases List.mem_cons.mp hm' with h | h
        · have : rel' = rel := ho.single rel' hrel' rel hrel (hp'.trans hp.symm) (h.trans hch.symm)
          subst this
          have hcy : c' = y := by
            have e1 := get?_of_mem hwire.ids hc'
            rw [hid', h, hy] at e1
            exact (Option.some.inj e1).symm
          subst hcy
          exact h2 r m (.inl ⟨s, hs, he, hm⟩)
        · exact absurd h hin

theorem updateAll_okD {es : ESet} (hwire : Wired es) (ho : Dated es) {x : Entity} (hx : x ∈ es.entities) {lti : String → Option Lti}
    (hlti : ∀ c ∈ ltiChildren es.rels x.id, ∃ y l, es.get? c = some y ∧ lti c = some l ∧ LtiOk es y l) {P : Row → Int → Prop} {l : Lti}
    (hl : LtiPart es x P l) : LtiOk es x (updateAllDask es lti x.id (ltiChildren es.rels x.id) l) := by
  obtain ⟨Q, ⟨v, hv, hq⟩, hsub, hall⟩ := updateAll_partD hwire ho hx (fun c hc => mem_ltiChildren.mp hc) hlti hl
  refine ⟨v, hv, fun r hr => ?_⟩
  obtain ⟨h1, h2, h3⟩ := hq r hr
  refine isLatest_congr (fun m => ⟨h3 m, fun h => ?_⟩) h1
  rcases hasTime_inv hwire hx h with h | ⟨rel, hrel, hp, c, hc, hid, s, hs, he, h⟩
  · exact h2 m h
  · exact hall r hr rel hrel hp (mem_ltiChildren.mpr ⟨rel, hrel, hp, rfl⟩) c hc hid s hs he m h

theorem ltiRound_invD {es : ESet} {old : String → Option Lti} (hwire : Wired es) (ho : Dated es) {st : LtiState} {e : String} {x : Entity} {q : List String}
    (hx : es.get? e = some x) (h : LtiInv es old st) : LtiInv es old (ltiRoundDask es e x q st) := by
  have hxe := get?_mem hx
  have hpart : ∃ P, LtiPart es x P ((st.lti e).getD (ownTimes x)) := by
    cases hl : st.lti e with
    | none => exact ownTimes_partD ho hxe.1
    | some l => exact h.todo e l x hl hx
  unfold ltiRoundDask
  simp only
  split
  · rename_i hall
    have hok : LtiOk es x (updateAllDask es st.lti e (ltiChildren es.rels e) ((st.lti e).getD (ownTimes x))) := by
      obtain ⟨P, hP⟩ := hpart
      have := updateAll_okD (lti := st.lti) hwire ho hxe.1 (fun c hc => by
        rw [hxe.2] at hc
        exact h.done c (by simpa using List.all_eq_true.mp hall c hc)) hP
      rw [hxe.2] at this; exact this
    constructor
    · intro e' y l hy ho' hl
      simp only
      split
      · rename_i hee; subst hee; rw [hx] at hy; cases hy
        rw [ltiOk_unique hl hok]
      · exact h.kept e' y l hy ho' hl
    · intro e' he'
      simp only [List.mem_append, List.mem_singleton] at he'
      by_cases hee : e' = e
      · subst hee; exact ⟨x, _, hx, if_pos rfl, hok⟩
      · rcases he' with he' | he'
        · obtain ⟨y, l, h1, h2, h3⟩ := h.done e' he'
          exact ⟨y, l, h1, by simp only [if_neg hee]; exact h2, h3⟩
        · exact absurd he' hee
    · intro e' l y hl hy
      simp only at hl
      split at hl
      · rename_i hee; subst hee; cases hl; rw [hx] at hy; cases hy; exact ltiOk_part hxe.1 hok
      · exact h.todo e' l y hl hy
  · constructor
    · intro e' y l hy ho' hl
      have := h.kept e' y l hy ho' hl
      simp only
      split
      · rename_i hee; subst hee; rw [this]; rfl
      · exact this
    · intro e' he'
      simp only at he'
      obtain ⟨y, l, h1, h2, h3⟩ := h.done e' he'
      by_cases hee : e' = e
      · subst hee
        refine ⟨y, l, h1, ?_, h3⟩
        simp only [if_pos]
        rw [h2]; rfl
      · exact ⟨y, l, h1, by simp only [if_neg hee]; exact h2, h3⟩
    · intro e' l y hl hy
      simp only at hl
      split at hl
      · rename_i hee; subst hee; cases hl; rw [hx] at hy; cases hy; exact hpart
      · exact h.todo e' l y hl hy

theorem ltiLoop_invD {es : ESet} {old : String → Option Lti} (hwire : Wired es) (ho : Dated es) {todo : List String} {n : Nat} {st st' : LtiState} (h : LtiInv es old st)
    (hl : ltiLoopDask es todo n st = some st') : LtiInv es old st' ∧ ∀ e ∈ todo, e ∈ st'.explored := by
  induction n generalizing st with
  | zero => cases hl
  | succ n ih =>
    unfold ltiLoopDask at hl
    split at hl
    · rename_i hall
      cases hl
      exact ⟨h, fun e he => by simpa using List.all_eq_true.mp hall e he⟩
    · split at hl
      · cases hl
      · split at hl
        · cases hl
        · rename_i e q hq x hx
          exact ih (ltiRound_invD hwire ho hx h) hl

theorem ltiLoop_monoD {es : ESet} {todo : List String} {n k : Nat} {st st' : LtiState} (h : ltiLoopDask es todo n st = some st') (hk : n ≤ k) :
    ltiLoopDask es todo k st = some st' := by
  induction n generalizing st k with
  | zero => cases h
  | succ n ih =>
    obtain ⟨k, rfl⟩ : ∃ k', k = k' + 1 := ⟨k - 1, by omega⟩
    unfold ltiLoopDask at h ⊢
    split
    · rename_i hc; rw [if_pos hc] at h; exact h
    · rename_i hc
      rw [if_neg hc] at h
      split at h
      · cases h
      · rename_i e q hq
        split at h
        · cases h
        · exact ih h (by omega)

theorem ltiRun_okD {es es' : ESet} (hw : Wired es) (ho : Dated es) {queue : List String} {fuel : Nat}
    (hold : ∀ x ∈ es.entities, x.id ∉ queue → ∀ l, x.lti = some l → LtiOk es x l) (h : ltiRunDask es fuel queue = some es') :
    ∃ lti : String → Option Lti, es' = { es with entities := es.entities.map fun x => { x with lti := lti x.id }, cache := none } ∧
      (∀ e ∈ queue, ∃ x l, es.get? e = some x ∧ lti e = some l ∧ LtiOk es x l) ∧
      ∀ x ∈ es.entities, x.id ∉ queue → ∀ l, x.lti = some l → lti x.id = some l := by
  unfold ltiRunDask at h
  split at h
  · cases h
  · rename_i st hst
    cases h
    have hinv : LtiInv es (fun e => if queue.contains e then none else (es.get? e).bind Entity.lti)
        { queue := queue, explored := [], lti := fun e => if queue.contains e then none else (es.get? e).bind Entity.lti } := by
      constructor
      · intro e x l _ h _; exact h
      · intro e he; cases he
      · intro e l x hl hx
        simp only at hl
        split at hl
        · cases hl
        · rename_i hc
          rw [hx] at hl
          have hxe := get?_mem hx
          exact ltiOk_part hxe.1 (hold x hxe.1 (by rw [hxe.2]; simpa using hc) l hl)
    obtain ⟨h1, h2⟩ := ltiLoop_invD hw ho hinv hst
    refine ⟨st.lti, rfl, fun e he => h1.done e (h2 e he), fun x hx hq l hl => ?_⟩
    refine h1.kept x.id x l (get?_of_mem hw.ids hx) ?_ (hold x hx hq l hl)
    simp [hq, get?_of_mem hw.ids hx, hl]

/-! ### The loop ends as it does on pandas -/

theorem ltiRound_shape (es : ESet) (e : String) (x : Entity) (q : List String) {st sd : LtiState} (h : st.explored = sd.explored) :
    (ltiRound es e x q st).queue = (ltiRoundDask es e x q sd).queue ∧ (ltiRound es e x q st).explored = (ltiRoundDask es e x q sd).explored := by
  unfold ltiRound ltiRoundDask
  simp only [h]
  split <;> exact ⟨rfl, rfl⟩

theorem ltiLoop_shape (es : ESet) (todo : List String) (n : Nat) {st sd : LtiState} (hq : st.queue = sd.queue) (he : st.explored = sd.explored) :
    (ltiLoop es todo n st).isSome = (ltiLoopDask es todo n sd).isSome := by
  induction n generalizing st sd with
  | zero => rfl
  | succ n ih =>
    unfold ltiLoop ltiLoopDask
    rw [hq, he]
    split
    · rfl
    · cases sd.queue with
      | nil => rfl
      | cons e q =>
        cases hg : es.get? e with
        | none => simp only [hg]
        | some x => simp only [hg]; exact ih (ltiRound_shape es _ _ _ he).1 (ltiRound_shape es _ _ _ he).2

theorem ltiRun_shape (es : ESet) (fuel : Nat) (queue : List String) : (ltiRun es fuel queue).isSome = (ltiRunDask es fuel queue).isSome := by
  have h := ltiLoop_shape es queue fuel
    (st := { queue := queue, explored := [], lti := fun e => if queue.contains e then none else (es.get? e).bind Entity.lti })
    (sd := { queue := queue, explored := [], lti := fun e => if queue.contains e then none else (es.get? e).bind Entity.lti }) rfl rfl
  unfold ltiRun ltiRunDask
  split <;> rename_i h1 <;> rw [h1] at h <;> split <;> rename_i h2 <;> rw [h2] at h <;> first | rfl | cases h

end FT
