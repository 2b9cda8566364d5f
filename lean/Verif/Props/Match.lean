import Verif.Lemmas.Match
/-! # C43: choosing the inputs of a primitive -/
namespace FT
open FT.Spec

/-- C43: for a primitive whose inputs are ordered, exactly the inputs of the given types, each once. -/
theorem C43_ordered (L : Lang) (types : List String) (features : List DFeat) (required : Bool) (hn : types ≠ [])
    (hd : Distinct features) :
    (matchInputs L types features false false required).Nodup ∧
      ∀ t, t ∈ matchInputs L types features false false required ↔ IsInput L.sub types features required t := by
  have he : matchInputs L types features false false required = matchTuples L.sub false types features required := by
    match types, hn with
    | [ty], _ => rfl
    | ty :: ty' :: tys, _ => rfl
  rw [he]
  refine ⟨matchTuples_nodup hd, fun t => (mem_matchTuples (injNames_of_distinct hd) hn).trans ?_⟩
  exact ⟨fun h => ⟨h.1, h.2.1, h.2.2.1 rfl, h.2.2.2⟩, fun h => ⟨h.1, h.2, fun _ => h.3, h.4⟩⟩

/-- C43: with repetitions allowed, the same without the condition that the features differ. -/
theorem C43_repeating (L : Lang) (types : List String) (features : List DFeat) (required : Bool) (hn : types ≠ [])
    (hd : Distinct features) :
    (matchInputs L types features true false required).Nodup ∧
      ∀ t, t ∈ matchInputs L types features true false required ↔
        Fits L.sub types t ∧ (∀ f ∈ t, f ∈ features) ∧ (required = true → ∃ f ∈ t, ∃ r, f.kind = .direct r) := by
  have he : matchInputs L types features true false required = matchTuples L.sub true types features required := by
    match types, hn with
    | [ty], _ => rfl
    | ty :: ty' :: tys, _ => rfl
  rw [he]
  refine ⟨matchTuples_nodup hd, fun t => (mem_matchTuples (injNames_of_distinct hd) hn).trans ?_⟩
  exact ⟨fun h => ⟨h.1, h.2.1, h.2.2.2⟩, fun h => ⟨h.1, h.2.1, fun e => (by cases e), h.2.2⟩⟩

/-- C43: for a commutative primitive, every result is a reordering of an input, by lower-case name; every input has exactly
one reordering among the results, and no result occurs twice. The order in which a set is iterated does not matter. -/
theorem C43_commutative (L : Lang) (hL : ∀ l, (L.setOrder l).Perm l) (types : List String) (features : List DFeat)
    (required : Bool) (hn : types ≠ []) (hd : Distinct features) :
    (matchInputs L types features false true required).Nodup ∧
      (∀ t ∈ matchInputs L types features false true required,
        (∃ s, IsInput L.sub types features required s ∧ t.Perm s) ∧ t.Pairwise fun a b => L.lower a.name ≤ L.lower b.name) ∧
      ∀ s, IsInput L.sub types features required s →
        ∃ t ∈ matchInputs L types features false true required, t.Perm s ∧
          ∀ t' ∈ matchInputs L types features false true required, t'.Perm s → t' = t := by
  have hinj := injNames_of_distinct hd
  match types, hn with
  | [ty], _ =>
    obtain ⟨h1, h2⟩ := C43_ordered L [ty] features required (by simp) hd
    have he : matchInputs L [ty] features false true required = matchInputs L [ty] features false false required := rfl
    rw [he]
    refine ⟨h1, fun t ht => ⟨⟨t, (h2 t).mp ht, .refl _⟩, ?_⟩, fun s hs => ⟨s, (h2 s).mpr hs, .refl _, fun t' ht' hp => ?_⟩⟩
    · match t, ((h2 t).mp ht).fits with
      | [f], _ => exact List.pairwise_singleton _ _
    · match s, hs.fits with
      | [f], _ => exact List.perm_singleton.mp hp
  | ty :: ty' :: tys, _ =>
    have hmem := mem_setSource (sub := L.sub) (rep := false) (ty := ty) (tys := ty' :: tys) (req := required) hinj (by simp)
    have he : matchInputs L (ty :: ty' :: tys) features false true required = matchSets L false ty (ty' :: tys) features required := rfl
    rw [he, matchSets]
    generalize ((matchByType L.sub features ty).flatMap fun m =>
      (matchTuples L.sub false (ty' :: tys) (withoutFeature false features m) (required && !m.isDirect)).map fun r => m :: r) = src at hmem
    have hfound : ∀ t ∈ dedupOn setKey src, Found L.sub false (ty :: ty' :: tys) features required t :=
      fun t ht => (hmem t).mp (mem_of_dedupOn _ ht)
    have hpw := dedupOn_pairwise setKey src
    refine ⟨?_, ?_, ?_⟩
    · rw [List.Nodup, List.pairwise_map]
      have : (dedupOn setKey src).Pairwise fun a b => a ∈ dedupOn setKey src ∧ b ∈ dedupOn setKey src ∧ setKey a ≠ setKey b := by
        refine (List.pairwise_iff_forall_sublist).mpr fun {a b} hab => ?_
        have hm : ∀ x ∈ [a, b], x ∈ dedupOn setKey src := fun x hx => hab.subset hx
        exact ⟨hm a (by simp), hm b (by simp), (List.pairwise_iff_forall_sublist).mp hpw hab⟩
      refine this.imp fun {a b} ⟨ha, hb, hab⟩ heq => hab ?_
      have fa := hfound a ha
      have fb := hfound b hb
      refine (setKey_eq_iff hinj fa.2.1 fb.2.1 (fa.2.2.1 rfl) (fb.2.2.1 rfl)).mpr ?_
      exact (sortMatch_perm hL (found_distinct fa)).symm.trans (heq ▸ sortMatch_perm hL (found_distinct fb))
    · intro t ht
      obtain ⟨s, hs, rfl⟩ := List.mem_map.mp ht
      have fs := hfound s hs
      refine ⟨⟨s, ⟨fs.1, fs.2.1, fs.2.2.1 rfl, fs.2.2.2⟩, sortMatch_perm hL (found_distinct fs)⟩, ?_⟩
      have := isort_sorted (fun a b : DFeat => decide (L.lower a.name ≤ L.lower b.name)) (fun a b => strLe_total _ _)
        (fun a b c => strLe_trans _ _ _) (L.setOrder (dedupOn DFeat.uname s))
      exact this.imp fun h => of_decide_eq_true h
    · intro s hs
      have fs : Found L.sub false (ty :: ty' :: tys) features required s := ⟨hs.1, hs.2, fun _ => hs.3, hs.4⟩
      obtain ⟨u, hu, hk⟩ := dedupOn_key setKey ((hmem s).mpr fs)
      have fu := hfound u hu
      have hus := (setKey_eq_iff hinj fu.2.1 fs.2.1 (fu.2.2.1 rfl) (fs.2.2.1 rfl)).mp hk
      refine ⟨sortMatch L u, List.mem_map.mpr ⟨u, hu, rfl⟩, (sortMatch_perm hL (found_distinct fu)).trans hus, fun t' ht' hp => ?_⟩
      obtain ⟨w, hw, rfl⟩ := List.mem_map.mp ht'
      have fw := hfound w hw
      have hwu : w.Perm u := ((sortMatch_perm hL (found_distinct fw)).symm.trans hp).trans hus.symm
      have hkey := (setKey_eq_iff hinj fw.2.1 fu.2.1 (fw.2.2.1 rfl) (fu.2.2.1 rfl)).mpr hwu
      have : w = u := Classical.byContradiction fun hne => by
        obtain ⟨i, hi, rfl⟩ := List.getElem_of_mem hw
        obtain ⟨j, hj, rfl⟩ := List.getElem_of_mem hu
        rw [List.pairwise_iff_getElem] at hpw
        rcases Nat.lt_trichotomy i j with h | h | h
        · exact hpw i j hi hj h hkey
        · subst h; exact hne rfl
        · exact hpw j i hj hi h hkey.symm
      rw [this]

namespace MatchExample
/-- Two numeric columns and a numeric column of a parent. -/
def a : DFeat := .mk (.identity "a" "Numeric") "log" "a" [] []
def b : DFeat := .mk (.identity "b" "Numeric") "log" "b" [] []
def d : DFeat := .mk (.direct ⟨"sessions", "id", "log", "session_id"⟩) "log" "sessions.c" [.mk (.identity "c" "Numeric") "sessions" "c" [] []] []
def lang : Lang where
  sub := fun x y => x == y
  lower := id
  setOrder := id
  namer := { direct := fun _ n => n, agg := fun _ _ _ _ => "", trans := fun _ _ => "", groupby := fun _ _ _ => "", slice := fun f _ => f.name }

example : Distinct [a, b, d] := by
  simp only [Distinct, List.pairwise_cons]
  decide

example : IsInput lang.sub ["Numeric", "Numeric"] [a, b, d] true [b, d] := by
  refine ⟨⟨by decide, by decide, trivial⟩, ?_, by simp only [List.pairwise_cons]; decide, fun _ => ⟨d, by simp, _, rfl⟩⟩
  intro f hf
  rcases List.mem_cons.mp hf with rfl | hf
  · simp
  · simp at hf; simp [hf]

example : ((matchInputs lang ["Numeric", "Numeric"] [a, b, d] false true true).map tupleKey) =
    [["log: a", "log: sessions.c"], ["log: b", "log: sessions.c"]] := by decide

end MatchExample

/-- With both `replace` and `commutative`, a feature matched with itself gives a "pair" of one feature, which no primitive
of two inputs can take. (The synthesis never passes `replace`.) -/
theorem C43_replace_commutative_violated :
    ∃ (L : Lang) (types : List String) (features : List DFeat), (∀ l, (L.setOrder l).Perm l) ∧ Distinct features ∧
      ∃ t ∈ matchInputs L types features true true false, t.length ≠ types.length := by
  refine ⟨MatchExample.lang, ["Numeric", "Numeric"], [MatchExample.a], fun l => .refl _, List.pairwise_singleton _ _, [MatchExample.a], ?_, by decide⟩
  have : matchInputs MatchExample.lang ["Numeric", "Numeric"] [MatchExample.a] true true false = [[MatchExample.a]] := rfl
  rw [this]
  simp

end FT
