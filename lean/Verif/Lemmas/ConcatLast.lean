import Verif.Model.ConcatLast
import Verif.Spec.ConcatLast
import Verif.Lemmas.Replaced
import Verif.Lemmas.Serialize
import Verif.Props.LastTime
/-! # Lemmas about last time indexes when data changes -/
namespace FT
open Spec

/-- The entities the loop comes to. -/
inductive Reach (rels : List Relationship) (todo : List String) : String → Prop
  | here {e : String} (h : e ∈ todo) : Reach rels todo e
  | child {e : String} {r : Relationship} (h : Reach rels todo e) (hr : r ∈ rels) (hp : r.parentE = e) : Reach rels todo r.childE

/-- What the loop has done. -/
structure ReachInv (rels : List Relationship) (todo : List String) (old : String → Option Lti) (st : LtiState) : Prop where
  queue : ∀ e ∈ st.queue, Reach rels todo e
  closed : ∀ e ∈ st.explored, ∀ r ∈ rels, r.parentE = e → r.childE ∈ st.explored
  lti : ∀ e, st.lti e ≠ none → old e ≠ none ∨ Reach rels todo e
  kept : ∀ e, old e ≠ none → st.lti e ≠ none

theorem ltiRound_reach {es : ESet} {todo : List String} {old : String → Option Lti} {st : LtiState} {e : String} {x : Entity} {q : List String}
    (hq : st.queue = e :: q) (h : ReachInv es.rels todo old st) : ReachInv es.rels todo old (ltiRound es e x q st) := by
  have he : Reach es.rels todo e := h.queue e (by rw [hq]; exact List.mem_cons_self ..)
  have hq' : ∀ c ∈ q, Reach es.rels todo c := fun c hc => h.queue c (by rw [hq]; exact List.mem_cons_of_mem _ hc)
  unfold ltiRound
  simp only
  split
  · rename_i hall
    refine ⟨hq', ?_, ?_, ?_⟩
    · intro c hc r hr hp
      rcases List.mem_append.mp hc with hc | hc
      · exact List.mem_append.mpr (.inl (h.closed c hc r hr hp))
      · simp only [List.mem_singleton] at hc
        refine List.mem_append.mpr (.inl ?_)
        simpa using List.all_eq_true.mp hall r.childE (mem_ltiChildren.mpr ⟨r, hr, hp.trans hc, rfl⟩)
    · intro c hc
      simp only at hc
      split at hc
      · rename_i hce; subst hce; exact .inr he
      · exact h.lti c hc
    · intro c hc
      simp only
      split
      · simp
      · exact h.kept c hc
  · refine ⟨?_, h.closed, ?_, ?_⟩
    · intro c hc
      simp only [List.append_assoc, List.mem_append, List.mem_singleton] at hc
      rcases hc with hc | hc | hc
      · exact hq' c hc
      · rw [mem_dedup, List.mem_filter] at hc
        obtain ⟨r, hr, hp, rfl⟩ := mem_ltiChildren.mp hc.1
        exact .child he hr hp
      · exact hc ▸ he
    · intro c hc
      simp only at hc
      split at hc
      · rename_i hce; subst hce; exact .inr he
      · exact h.lti c hc
    · intro c hc
      simp only
      split
      · simp
      · exact h.kept c hc

theorem ltiLoop_reach {es : ESet} {todo : List String} {old : String → Option Lti} {n : Nat} {st st' : LtiState} (h : ReachInv es.rels todo old st)
    (hl : ltiLoop es todo n st = some st') : ReachInv es.rels todo old st' ∧ ∀ e ∈ todo, e ∈ st'.explored := by
  induction n generalizing st with
  | zero => cases hl
  | succ n ih =>
    unfold ltiLoop at hl
    split at hl
    · rename_i hall
      cases hl
      exact ⟨h, fun e he => by simpa using List.all_eq_true.mp hall e he⟩
    · split at hl
      · cases hl
      · split at hl
        · cases hl
        · rename_i e q hq _ x hx
          exact ih (ltiRound_reach hq h) hl

/-- What the loop over a queue leaves behind, for all entities. -/
theorem ltiRun_full {es es' : ESet} (hw : Wired es) (ho : Orderly es) {queue : List String} {fuel : Nat}
    (hold : ∀ x ∈ es.entities, x.id ∉ queue → ∀ l, x.lti = some l → LtiOk es x l) (h : ltiRun es fuel queue = some es') :
    ∃ lti : String → Option Lti, es' = { es with entities := es.entities.map fun x => { x with lti := lti x.id }, cache := none } ∧
      (∀ x ∈ es.entities, ∀ l, lti x.id = some l → LtiOk es x l) ∧
      ∀ x ∈ es.entities, (lti x.id ≠ none ↔ Reach es.rels queue x.id ∨ x.lti ≠ none) := by
  unfold ltiRun at h
  split at h
  · cases h
  · rename_i st hst
    cases h
    have hinv : LtiInv es (fun e => if queue.contains e then none else (es.get? e).bind Entity.lti)
        { queue := queue, explored := [], lti := fun e => if queue.contains e then none else (es.get? e).bind Entity.lti } := by
      constructor
      · intro e x l _ h _; exact h
      · intro e he; cases he
      · intro e l x hl hx
        simp only at hl
        split at hl
        · cases hl
        · rename_i hc
          rw [hx] at hl
          have hxe := get?_mem hx
          exact ltiOk_part hxe.1 (hold x hxe.1 (by rw [hxe.2]; simpa using hc) l hl)
    have hr0 : ReachInv es.rels queue (fun e => if queue.contains e then none else (es.get? e).bind Entity.lti)
        { queue := queue, explored := [], lti := fun e => if queue.contains e then none else (es.get? e).bind Entity.lti } :=
      ⟨fun e he => .here he, (fun e he => by cases he), fun e he => .inl he, fun e he => he⟩
    obtain ⟨h1, h2⟩ := ltiLoop_inv hw ho hinv hst
    obtain ⟨r1, _⟩ := ltiLoop_reach hr0 hst
    have hexp : ∀ e, Reach es.rels queue e → e ∈ st.explored := by
      intro e he
      induction he with
      | here h => exact h2 _ h
      | child _ hr hp ih => exact r1.closed _ ih _ hr hp
    have hdone : ∀ x ∈ es.entities, Reach es.rels queue x.id → ∃ l, st.lti x.id = some l ∧ LtiOk es x l := by
      intro x hx hr
      obtain ⟨y, l, hy, hl, hok⟩ := h1.done x.id (hexp _ hr)
      rw [get?_of_mem hw.ids hx] at hy
      cases hy
      exact ⟨l, hl, hok⟩
    have hkept : ∀ x ∈ es.entities, x.id ∉ queue → ∀ l, x.lti = some l → st.lti x.id = some l ∧ LtiOk es x l := fun x hx hq l hl =>
      ⟨h1.kept x.id x l (get?_of_mem hw.ids hx) (by simp [hq, get?_of_mem hw.ids hx, hl]) (hold x hx hq l hl), hold x hx hq l hl⟩
    refine ⟨st.lti, rfl, fun x hx l hl => ?_, fun x hx => ⟨fun hn => ?_, fun hn => ?_⟩⟩
    · by_cases hr : Reach es.rels queue x.id
      · obtain ⟨l', hl', hok⟩ := hdone x hx hr
        rw [hl'] at hl
        cases hl
        exact hok
      · have hq : x.id ∉ queue := fun h => hr (.here h)
        rcases r1.lti x.id (by rw [hl]; simp) with h | h
        · simp only [List.contains_eq_mem, hq, decide_false, Bool.false_eq_true, if_false, get?_of_mem hw.ids hx, Option.bind_some] at h
          obtain ⟨l', hl'⟩ := Option.ne_none_iff_exists'.mp h
          obtain ⟨k1, k2⟩ := hkept x hx hq l' hl'
          rw [k1] at hl
          cases hl
          exact k2
        · exact absurd h hr
    · rcases r1.lti x.id hn with h | h
      · split at h
        · exact absurd rfl h
        · rw [get?_of_mem hw.ids hx] at h
          exact .inr h
      · exact .inl h
    · by_cases hr : Reach es.rels queue x.id
      · obtain ⟨l', hl', _⟩ := hdone x hx hr
        rw [hl']; simp
      · rcases hn with hn | hn
        · exact absurd hn hr
        · obtain ⟨l', hl'⟩ := Option.ne_none_iff_exists'.mp hn
          rw [(hkept x hx (fun h => hr (.here h)) l' hl').1]; simp

theorem reach_renewed {es : ESet} {updated queue : List String} (hq : ∀ e, e ∈ queue ↔ Above es updated e) (e : String) :
    Reach es.rels queue e ↔ Renewed es updated e := by
  constructor
  · intro h
    induction h with
    | here h => exact .above ((hq _).mp h)
    | child _ hr hp ih => exact .child ih hr hp
  · intro h
    induction h with
    | above h => exact .here ((hq _).mpr h)
    | child _ hr hp ih => exact .child ih hr hp

theorem addLast_full {es es' : ESet} {order : List String → List String} (hord : ∀ l, (order l).Perm l) {updated : List String}
    (hne : updated ≠ []) {fuel : Nat} (hw : Wired es) (ho : Orderly es)
    (hold : ∀ x ∈ es.entities, ¬ Above es updated x.id → ∀ l, x.lti = some l → LtiOk es x l)
    (h : addLastTimeIndexes es order updated fuel = some es') :
    ∃ lti : String → Option Lti, es' = { es with entities := es.entities.map fun x => { x with lti := lti x.id }, cache := none } ∧
      (∀ x ∈ es.entities, ∀ l, lti x.id = some l → LtiOk es x l) ∧
      ∀ x ∈ es.entities, (lti x.id ≠ none ↔ Renewed es updated x.id ∨ x.lti ≠ none) := by
  unfold addLastTimeIndexes at h
  rw [if_neg (by simpa using hne)] at h
  split at h
  · cases h
  · rename_i parents hp
    obtain ⟨_, hmem⟩ := parentLoop_spec hp (fun e he => .inl he) (fun e he => .here he) (fun e he => by cases he) (fun e he => by cases he) List.nodup_nil
    have hq : ∀ e, e ∈ order parents ↔ Above es updated e := fun e => ((hord parents).mem_iff).trans (hmem e)
    obtain ⟨lti, h1, h2, h3⟩ := ltiRun_full hw ho (fun x hx hn l hl => hold x hx (fun ha => hn ((hq _).mpr ha)) l hl) h
    exact ⟨lti, h1, h2, fun x hx => by rw [h3 x hx, reach_renewed hq]⟩

/-- Last time indexes do not matter to times. -/
theorem within_lti (es : ESet) (f : String → Option Lti) {tt : Option TimeType} {cache : Option Desc} :
    Within es { es with entities := es.entities.map fun x => { x with lti := f x.id }, timeType := tt, cache := cache } ∧
    Within { es with entities := es.entities.map fun x => { x with lti := f x.id }, timeType := tt, cache := cache } es := by
  refine ⟨⟨fun _ h => h, fun x hx => ⟨{ x with lti := f x.id }, List.mem_map_of_mem hx, rfl, rfl, rfl, rfl⟩⟩, ⟨fun _ h => h, fun y hy => ?_⟩⟩
  obtain ⟨x, hx, rfl⟩ := List.mem_map.mp hy
  exact ⟨x, hx, rfl, rfl, rfl, rfl⟩

theorem above_rels {a b : ESet} (h : a.rels = b.rels) {u : List String} {e : String} : Above a u e ↔ Above b u e := by
  have key : ∀ {a b : ESet}, a.rels = b.rels → Above a u e → Above b u e := by
    intro a b h ha
    induction ha with
    | here h => exact .here h
    | parent _ hr hc ih => exact .parent ih (h ▸ hr) hc
  exact ⟨key h, key h.symm⟩

theorem renewed_rels {a b : ESet} (h : a.rels = b.rels) {u : List String} {e : String} : Renewed a u e ↔ Renewed b u e := by
  have key : ∀ {a b : ESet}, a.rels = b.rels → Renewed a u e → Renewed b u e := by
    intro a b h ha
    induction ha with
    | above ha => exact .above ((above_rels h).mp ha)
    | child _ hr hc ih => exact .child ih (h ▸ hr) hc
  exact ⟨key h, key h.symm⟩

/-- Replacing data keeps ids and last time indexes. -/
theorem update_ltis {lib : Lib} {es es' : ESet} {e : String} {df : DataFrame} {sorted : Bool} {x : Entity} (hx : es.get? e = some x)
    (hn : (es.entities.map Entity.id).Nodup) (hi : x.index ∈ x.vars.map Var.id) (h : updateData lib es e df sorted = (es', none)) :
    (es'.entities.map fun x => (x.id, x.lti)) = es.entities.map (fun x => (x.id, x.lti)) ∧ es'.rels = es.rels := by
  obtain ⟨_, _, _, tt, _, _, rfl⟩ := (update_iff hx hi).mp h
  refine ⟨?_, rfl⟩
  simp only [ESet.modify, List.map_map]
  apply List.map_congr_left
  intro y hy
  simp only [Function.comp]
  split
  · rename_i he
    have : y = x := by
      have h1 := get?_of_mem hn hy
      rw [show y.id = e by simpa using he, hx] at h1
      exact (Option.some.inj h1).symm
    rw [this]
  · rfl

/-- Concatenating keeps ids and last time indexes. -/
theorem concatLoop_ltis {lib : Lib} {other : ESet} {xs : List Entity} {es es' : ESet} (hn : (xs.map Entity.id).Nodup)
    (hne : (es.entities.map Entity.id).Nodup) (hi : ∀ x ∈ xs, x.index ∈ x.vars.map Var.id)
    (hx : ∀ x ∈ xs, es.get? x.id = some x) (h : concatLoop lib other xs es = (es', none)) :
    (es'.entities.map fun x => (x.id, x.lti)) = es.entities.map fun x => (x.id, x.lti) := by
  induction xs generalizing es with
  | nil => cases h; rfl
  | cons x xs ih =>
    simp only [List.map_cons, List.nodup_cons] at hn
    unfold concatLoop at h
    split at h
    · cases h
    · rename_i y hy
      split at h
      · cases h
      · rename_i es1 hes1
        obtain ⟨z, z1, z2, z3, z4, z5, z6, z7, z8, z9⟩ := update_ok (hx x (List.mem_cons_self ..)) hes1
        have hk := (update_ltis (hx x (List.mem_cons_self ..)) hne (hi x (List.mem_cons_self ..)) hes1).1
        have hids : es1.entities.map Entity.id = es.entities.map Entity.id := by
          have := congrArg (List.map Prod.fst) hk
          simpa [List.map_map, Function.comp_def] using this
        rw [ih (es := es1) hn.2 (hids ▸ hne) (fun w hw => hi w (List.mem_cons_of_mem _ hw)) (fun w hw => by
          have hne : w.id ≠ x.id := fun h => hn.1 (h ▸ List.mem_map_of_mem hw)
          rw [z8 _ hne]
          exact hx w (List.mem_cons_of_mem _ hw)) h]
        exact hk

theorem concat_ltis {lib : Lib} {a b c : ESet} (ha : Dicts a) (hb : Dicts b) (hi : ∀ x ∈ a.entities, x.index ∈ x.vars.map Var.id)
    (h : concat lib a b = (c, none)) :
    (c.entities.map fun x => (x.id, x.lti)) = a.entities.map (fun x => (x.id, x.lti)) ∧ c.rels = a.rels ∧ SameEntities a b := by
  unfold concat at h
  split at h
  · rename_i heq
    simp only [Bool.and_eq_true] at heq
    have hs := (esEq_shallow ha hb).mp heq.1
    have hx : ∀ x ∈ a.entities, a.get? x.id = some x := fun w hw => get?_of_mem ha.ids hw
    exact ⟨concatLoop_ltis ha.ids ha.ids hi hx h, (concatLoop_ok ha.ids hx h).2.2, hs.1⟩
  · cases h

theorem mem_hasLast {a b : ESet} (hb : (b.entities.map Entity.id).Nodup) (hids : ∀ y ∈ b.entities, y.id ∈ a.entities.map Entity.id) (e : String) :
    e ∈ hasLast a b ↔ TimedIn a b e := by
  unfold hasLast TimedIn
  simp only [List.mem_map, List.mem_filter, Bool.or_eq_true]
  constructor
  · rintro ⟨x, ⟨hx, h | h⟩, rfl⟩
    · exact .inl ⟨x, hx, rfl, Option.isSome_iff_ne_none.mp h⟩
    · cases hy : b.get? x.id with
      | none => rw [hy] at h; cases h
      | some y =>
        rw [hy] at h
        exact .inr ⟨y, (get?_mem hy).1, (get?_mem hy).2, Option.isSome_iff_ne_none.mp h⟩
  · rintro (⟨x, hx, rfl, h⟩ | ⟨y, hy, rfl, h⟩)
    · exact ⟨x, ⟨hx, .inl (Option.isSome_iff_ne_none.mpr h)⟩, rfl⟩
    · obtain ⟨x, hx, he⟩ := List.mem_map.mp (hids y hy)
      refine ⟨x, ⟨hx, .inr ?_⟩, he⟩
      rw [he, get?_of_mem hb hy]
      exact Option.isSome_iff_ne_none.mpr h

theorem above_single {es : ESet} {us : List String} {e : String} : Above es us e ↔ ∃ u ∈ us, Above es [u] e := by
  constructor
  · intro h
    induction h with
    | here h => exact ⟨_, h, .here (by simp)⟩
    | parent _ hr hc ih => obtain ⟨u, hu, ih⟩ := ih; exact ⟨u, hu, .parent ih hr hc⟩
  · rintro ⟨u, hu, h⟩
    induction h with
    | here h => simp only [List.mem_singleton] at h; exact .here (h ▸ hu)
    | parent _ hr hc ih => exact .parent ih hr hc

theorem renewed_single {es : ESet} {us : List String} {e : String} : Renewed es us e ↔ ∃ u ∈ us, Renewed es [u] e := by
  constructor
  · intro h
    induction h with
    | above h => obtain ⟨u, hu, h⟩ := above_single.mp h; exact ⟨u, hu, .above h⟩
    | child _ hr hc ih => obtain ⟨u, hu, ih⟩ := ih; exact ⟨u, hu, .child ih hr hc⟩
  · rintro ⟨u, hu, h⟩
    induction h with
    | above h => exact .above (above_single.mpr ⟨u, hu, h⟩)
    | child _ hr hc ih => exact .child ih hr hc

/-- Only the data of one entity differs. -/
structure OnlyAt (e : String) (a b : ESet) : Prop where
  rels : a.rels = b.rels
  others : ∀ x ∈ a.entities, x.id ≠ e → x ∈ b.entities

theorem hasTime_onlyAt {e : String} {a b : ESet} (h : OnlyAt e a b) {u : String} {r : Row} {m : Int} (ht : HasTime a u r m) (hu : ¬ Above a [e] u) :
    HasTime b u r m := by
  induction ht with
  | own hx hr ht hm => exact .own (h.others _ hx fun he => hu (.here (by simp [he]))) hr ht hm
  | child hx hr hc hrel hp hch hs hl _ ih =>
    have hcu : ¬ Above a [e] _ := fun hab => hu (hp ▸ .parent hab hrel hch)
    exact .child (h.others _ hx fun he => hu (.here (by simp [he]))) hr (h.others _ hc fun he => hcu (.here (by simp [he]))) (h.rels ▸ hrel) hp hch hs hl (ih hcu)

theorem ltiOk_onlyAt {e : String} {a b : ESet} (hab : OnlyAt e a b) (hba : OnlyAt e b a) {x : Entity} (hx : ¬ Above a [e] x.id) {l : Lti}
    (h : LtiOk a x l) : LtiOk b x l := by
  obtain ⟨v, rfl, hv⟩ := h
  exact ⟨v, rfl, fun r hr => isLatest_congr (fun m => ⟨fun h => hasTime_onlyAt hab h hx, fun h => hasTime_onlyAt hba h fun h' => hx ((above_rels hab.rels).mpr h')⟩) (hv r hr)⟩

end FT
