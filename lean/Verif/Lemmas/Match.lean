import Verif.Model.Match
import Verif.Spec.Match
import Verif.Lemmas.Sort
import Verif.Lemmas.Run
namespace FT
open FT.Spec

section dedupOn
variable {α κ : Type} [DecidableEq κ] (key : α → κ)

theorem mem_of_dedupOn {l : List α} {a : α} (h : a ∈ dedupOn key l) : a ∈ l := by
  induction l with
  | nil => simp [dedupOn] at h
  | cons b l ih =>
    simp only [dedupOn, List.mem_cons, List.mem_filter] at h
    rcases h with rfl | ⟨h, _⟩
    · exact List.mem_cons_self
    · exact List.mem_cons_of_mem _ (ih h)

theorem dedupOn_key {l : List α} {a : α} (h : a ∈ l) : ∃ b ∈ dedupOn key l, key b = key a := by
  induction l with
  | nil => simp at h
  | cons c l ih =>
    simp only [dedupOn, List.mem_cons, List.mem_filter]
    rcases List.mem_cons.mp h with rfl | h
    · exact ⟨a, .inl rfl, rfl⟩
    · obtain ⟨b, hb, hk⟩ := ih h
      by_cases hc : key b = key c
      · exact ⟨c, .inl rfl, by rw [← hc, hk]⟩
      · exact ⟨b, .inr ⟨hb, by simpa using hc⟩, hk⟩

theorem dedupOn_pairwise (l : List α) : (dedupOn key l).Pairwise fun a b => key a ≠ key b := by
  induction l with
  | nil => exact .nil
  | cons c l ih =>
    simp only [dedupOn, List.pairwise_cons, List.mem_filter]
    refine ⟨fun b hb h => ?_, ih.filter _⟩
    have := hb.2
    simp at this
    exact this h.symm

theorem dedupOn_self {l : List α} (h : l.Pairwise fun a b => key a ≠ key b) : dedupOn key l = l := by
  induction l with
  | nil => rfl
  | cons c l ih =>
    rw [List.pairwise_cons] at h
    simp only [dedupOn, ih h.2]
    congr 1
    rw [List.filter_eq_self]
    intro b hb
    simpa using fun e => h.1 b hb e.symm
end dedupOn

/-- Equal names mean equal features. -/
def InjNames (fs : List DFeat) : Prop := ∀ a ∈ fs, ∀ b ∈ fs, a.uname = b.uname → a = b

theorem injNames_of_distinct {fs : List DFeat} (h : Distinct fs) : InjNames fs := by
  intro a ha b hb hab
  induction fs with
  | nil => cases ha
  | cons c fs ih =>
    rw [Distinct, List.pairwise_cons] at h
    rcases List.mem_cons.mp ha with h1 | ha <;> rcases List.mem_cons.mp hb with h2 | hb
    · rw [h1, h2]
    · exact absurd (h1 ▸ hab) (h.1 b hb)
    · exact absurd (h2 ▸ hab).symm (h.1 a ha)
    · exact ih h.2 ha hb

theorem eq_of_tupleKey {fs : List DFeat} (hfs : InjNames fs) : ∀ {s t : List DFeat}, (∀ f ∈ s, f ∈ fs) → (∀ f ∈ t, f ∈ fs) →
    tupleKey s = tupleKey t → s = t
  | [], [], _, _, _ => rfl
  | [], _ :: _, _, _, h => by simp [tupleKey] at h
  | _ :: _, [], _, _, h => by simp [tupleKey] at h
  | a :: s, b :: t, hs, ht, h => by
    simp only [tupleKey, List.map_cons, List.cons.injEq] at h
    rw [hfs a (hs a List.mem_cons_self) b (ht b List.mem_cons_self) h.1,
      eq_of_tupleKey hfs (fun f hf => hs f (List.mem_cons_of_mem _ hf)) (fun f hf => ht f (List.mem_cons_of_mem _ hf)) h.2]

theorem mem_matchByType {sub : String → String → Bool} {fs : List DFeat} {t : String} {f : DFeat} :
    f ∈ matchByType sub fs t ↔ f ∈ fs ∧ sub f.vtype t = true := by simp [matchByType]

theorem isDirect_iff {f : DFeat} : f.isDirect = true ↔ ∃ r, f.kind = .direct r := by
  unfold DFeat.isDirect
  cases f.kind <;> simp

theorem mem_withoutFeature {fs : List DFeat} {m c : DFeat} {rep : Bool} :
    c ∈ withoutFeature rep fs m ↔ c ∈ fs ∧ (rep = false → c.uname ≠ m.uname) := by
  unfold withoutFeature
  cases rep <;> simp

/-- What the search yields, repetitions allowed or not. -/
def Found (sub : String → String → Bool) (rep : Bool) (types : List String) (fs : List DFeat) (req : Bool) (t : List DFeat) : Prop :=
  Fits sub types t ∧ (∀ f ∈ t, f ∈ fs) ∧ (rep = false → t.Pairwise fun a b => a.uname ≠ b.uname) ∧
    (req = true → ∃ f ∈ t, ∃ r, f.kind = .direct r)

theorem found_cons {sub : String → String → Bool} {rep : Bool} {ty : String} {types : List String} {fs : List DFeat} {req : Bool}
    {m : DFeat} {r : List DFeat} :
    Found sub rep (ty :: types) fs req (m :: r) ↔
      m ∈ matchByType sub fs ty ∧ Found sub rep types (withoutFeature rep fs m) (req && !m.isDirect) r := by
  simp only [Found, Fits, mem_matchByType, mem_withoutFeature, List.forall_mem_cons, List.pairwise_cons]
  constructor
  · rintro ⟨⟨h1, h2⟩, ⟨h3, h4⟩, h5, h6⟩
    refine ⟨⟨h3, h1⟩, h2, fun f hf => ⟨h4 f hf, fun hr => Ne.symm ((h5 hr).1 f hf)⟩, fun hr => (h5 hr).2, fun hq => ?_⟩
    simp only [Bool.and_eq_true, Bool.not_eq_true'] at hq
    obtain ⟨f, hf, hd⟩ := h6 hq.1
    rcases List.mem_cons.mp hf with rfl | hf
    · rw [isDirect_iff.mpr hd] at hq; exact absurd hq.2 (by simp)
    · exact ⟨f, hf, hd⟩
  · rintro ⟨⟨h3, h1⟩, h2, h4, h5, h6⟩
    refine ⟨⟨h1, h2⟩, ⟨h3, fun f hf => (h4 f hf).1⟩, fun hr => ⟨fun f hf => Ne.symm ((h4 f hf).2 hr), h5 hr⟩, fun hq => ?_⟩
    by_cases hm : m.isDirect = true
    · exact ⟨m, List.mem_cons_self, isDirect_iff.mp hm⟩
    · obtain ⟨f, hf, hd⟩ := h6 (by simp [hq, hm])
      exact ⟨f, List.mem_cons_of_mem _ hf, hd⟩

theorem injNames_without {fs : List DFeat} (h : InjNames fs) (rep : Bool) (m : DFeat) : InjNames (withoutFeature rep fs m) :=
  fun a ha b hb => h a (mem_withoutFeature.mp ha).1 b (mem_withoutFeature.mp hb).1

theorem mem_matchTuples {sub : String → String → Bool} {rep : Bool} :
    ∀ {types : List String} {fs : List DFeat} {req : Bool} {t : List DFeat}, InjNames fs → types ≠ [] →
      (t ∈ matchTuples sub rep types fs req ↔ Found sub rep types fs req t)
  | [], _, _, _, _, h => absurd rfl h
  | [ty], fs, req, t, hfs, _ => by
    simp only [matchTuples, List.mem_map, List.mem_filter, mem_matchByType]
    constructor
    · rintro ⟨m, ⟨⟨h1, h2⟩, h3⟩, rfl⟩
      refine ⟨⟨h2, trivial⟩, by simpa using h1, fun _ => List.pairwise_singleton _ _, fun hq => ?_⟩
      simp [hq] at h3
      exact ⟨m, by simp, isDirect_iff.mp h3⟩
    · rintro ⟨h1, h2, h3, h4⟩
      match t, h1 with
      | [m], h1 =>
        refine ⟨m, ⟨⟨h2 m (by simp), h1.1⟩, ?_⟩, rfl⟩
        cases req with
        | false => rfl
        | true =>
          obtain ⟨f, hf, hd⟩ := h4 rfl
          simp only [List.mem_singleton] at hf
          subst hf
          simp [isDirect_iff.mpr hd]
  | ty :: ty' :: tys, fs, req, t, hfs, _ => by
    have hmem : ∀ s, s ∈ ((matchByType sub fs ty).flatMap fun m =>
        (matchTuples sub rep (ty' :: tys) (withoutFeature rep fs m) (req && !m.isDirect)).map fun r => m :: r) ↔
        Found sub rep (ty :: ty' :: tys) fs req s := by
      intro s
      simp only [List.mem_flatMap, List.mem_map]
      constructor
      · rintro ⟨m, hm, r, hr, rfl⟩
        exact found_cons.mpr ⟨hm, (mem_matchTuples (injNames_without hfs rep m) (by simp)).mp hr⟩
      · intro h
        match s, h with
        | [], h => exact absurd h.1 (by simp [Fits])
        | m :: r, h =>
          have h' := found_cons.mp h
          exact ⟨m, h'.1, r, (mem_matchTuples (injNames_without hfs rep m) (by simp)).mpr h'.2, rfl⟩
    rw [matchTuples]
    constructor
    · intro h
      exact (hmem t).mp (mem_of_dedupOn _ h)
    · intro h
      obtain ⟨s, hs, hk⟩ := dedupOn_key tupleKey ((hmem t).mpr h)
      have hs' := (hmem s).mp (mem_of_dedupOn _ hs)
      rw [← eq_of_tupleKey hfs hs'.2.1 h.2.1 hk]
      exact hs

theorem matchTuples_nodup {sub : String → String → Bool} {rep : Bool} {types : List String} {fs : List DFeat} {req : Bool}
    (hfs : Distinct fs) : (matchTuples sub rep types fs req).Nodup := by
  match types with
  | [] => simp [matchTuples]
  | [ty] =>
    simp only [matchTuples, List.Nodup]
    rw [List.pairwise_map]
    have h1 : ((matchByType sub fs ty).filter fun m => !req || m.isDirect).Pairwise fun a b => a.uname ≠ b.uname :=
      (List.Pairwise.filter _ hfs).filter _
    refine h1.imp fun hab he => hab ?_
    cases he; rfl
  | ty :: ty' :: tys =>
    rw [matchTuples]
    refine (dedupOn_pairwise tupleKey _).imp fun hab he => hab ?_
    rw [he]

theorem found_distinct {sub : String → String → Bool} {types : List String} {fs : List DFeat} {req : Bool} {t : List DFeat}
    (h : Found sub false types fs req t) : dedupOn DFeat.uname t = t := dedupOn_self _ (h.2.2.1 rfl)

theorem mem_setSource {sub : String → String → Bool} {rep : Bool} {ty : String} {tys : List String} {fs : List DFeat} {req : Bool}
    (hfs : InjNames fs) (hne : tys ≠ []) (s : List DFeat) :
    s ∈ ((matchByType sub fs ty).flatMap fun m =>
        (matchTuples sub rep tys (withoutFeature rep fs m) (req && !m.isDirect)).map fun r => m :: r) ↔
        Found sub rep (ty :: tys) fs req s := by
  simp only [List.mem_flatMap, List.mem_map]
  constructor
  · rintro ⟨m, hm, r, hr, rfl⟩
    exact found_cons.mpr ⟨hm, (mem_matchTuples (injNames_without hfs rep m) hne).mp hr⟩
  · intro h
    match s, h with
    | [], h => exact absurd h.1 (by simp [Fits])
    | m :: r, h =>
      have h' := found_cons.mp h
      exact ⟨m, h'.1, r, (mem_matchTuples (injNames_without hfs rep m) hne).mpr h'.2, rfl⟩

theorem sortMatch_perm {L : Lang} (hL : ∀ l, (L.setOrder l).Perm l) {t : List DFeat} (h : dedupOn DFeat.uname t = t) :
    (sortMatch L t).Perm t := by
  unfold sortMatch
  rw [h]
  exact (isort_perm _ _).trans (hL t)

theorem perm_of_map_perm {fs : List DFeat} (hfs : InjNames fs) : ∀ {s t : List DFeat}, (∀ f ∈ s, f ∈ fs) → (∀ f ∈ t, f ∈ fs) →
    (s.map DFeat.uname).Perm (t.map DFeat.uname) → s.Perm t
  | [], t, _, _, h => by
    have := h.symm.eq_nil
    simp at this
    rw [this]
  | a :: s, t, hs, ht, h => by
    have ha : a.uname ∈ t.map DFeat.uname := h.mem_iff.mp (by simp)
    obtain ⟨b, hb, hab⟩ := List.mem_map.mp ha
    have : b = a := hfs b (ht b hb) a (hs a List.mem_cons_self) hab
    subst this
    obtain ⟨t1, t2, rfl⟩ := List.append_of_mem hb
    have hp : (t1 ++ b :: t2).Perm (b :: (t1 ++ t2)) := List.perm_middle
    have h2 : (s.map DFeat.uname).Perm ((t1 ++ t2).map DFeat.uname) := by
      have := h.trans (hp.map DFeat.uname)
      simpa using this
    have := perm_of_map_perm hfs (fun f hf => hs f (List.mem_cons_of_mem _ hf))
      (fun f hf => ht f (by simp at hf ⊢; rcases hf with hf | hf <;> simp [hf])) h2
    exact (this.cons b).trans hp.symm

theorem strLe_total (a b : String) : decide (a ≤ b) = true ∨ decide (b ≤ a) = true := by
  rcases String.le_total a b with h | h <;> simp [h]
theorem strLe_trans (a b c : String) (h1 : decide (a ≤ b) = true) (h2 : decide (b ≤ c) = true) : decide (a ≤ c) = true := by
  simp at *
  exact String.le_trans h1 h2
theorem strLe_antisymm (a b : String) (h1 : decide (a ≤ b) = true) (h2 : decide (b ≤ a) = true) : a = b := by
  simp at *
  exact String.le_antisymm h1 h2

theorem setKey_eq_iff {fs : List DFeat} (hfs : InjNames fs) {s t : List DFeat} (hs : ∀ f ∈ s, f ∈ fs) (ht : ∀ f ∈ t, f ∈ fs)
    (hs' : s.Pairwise fun a b => a.uname ≠ b.uname) (ht' : t.Pairwise fun a b => a.uname ≠ b.uname) :
    setKey s = setKey t ↔ s.Perm t := by
  have h1 : dedup (s.map DFeat.uname) = s.map DFeat.uname := (dedup_eq_self _).mpr (List.pairwise_map.mpr hs')
  have h2 : dedup (t.map DFeat.uname) = t.map DFeat.uname := (dedup_eq_self _).mpr (List.pairwise_map.mpr ht')
  unfold setKey
  rw [h1, h2]
  constructor
  · intro h
    have h3 := (isort_perm (fun a b : String => decide (a ≤ b)) (s.map DFeat.uname)).symm
    rw [h] at h3
    exact perm_of_map_perm hfs hs ht (h3.trans (isort_perm _ _))
  · intro h
    exact isort_perm_eq strLe_total strLe_trans (h.map _) fun a _ b _ => strLe_antisymm a b

end FT
