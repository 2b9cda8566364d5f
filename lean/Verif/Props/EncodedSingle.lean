import Verif.Props.Encoded
import Verif.Props.ApproxSingle
/-!
# C33, C81: a single cutoff time is a table

A call with one cutoff time, for given instances or for all, gives the matrix of the table with these instances at that time. So what
`encode_features` returns can be calculated in this way too.
-/
namespace FT
open Spec

/-- C33. Without `approximate`, a call with a single cutoff time, or none, for some instances or for all there are at that time, gives what
the call with the table of these instances at that time gives. -/
theorem C33_single_is_table_partial (a : CfmArgs) (e : String) (hf : a.features ≠ []) (t : Int)
    (hcut : a.cutoff = .single t ∨ (a.cutoff = .missing ∧ a.now = t)) (happ : a.approximate = none) (ids : List Val)
    (hids : a.instanceIds = some ids ∨ (a.instanceIds = none ∧ ids = (worldAt a.env t).ids e)) (hne : ids ≠ []) (hdist : ids.Nodup)
    (R : RegularAt a.env a.features e t) (hsize : SizeOk a.chunkSize) (hexec : Fair a.exec) :
    calculateFeatureMatrix a = calculateFeatureMatrix { a with cutoff := .table [] (ids.map fun i => ⟨i, some t, []⟩) } := by
  obtain ⟨f0, fs, hfs⟩ := List.exists_cons_of_ne_nil hf
  have he : f0.entity = e := R.targetEntity f0 (by rw [hfs]; exact List.mem_cons_self ..)
  subst he
  obtain ⟨i0, hi0⟩ := List.exists_mem_of_ne_nil ids hne
  have htab := C33_table_partial { a with cutoff := .table [] (ids.map fun i => ⟨i, some t, []⟩) } f0 fs hfs [] _ rfl happ
    ⟨_, List.mem_map.mpr ⟨i0, hi0, rfl⟩, by simp⟩ (by
      rw [List.map_map]
      exact List.Pairwise.map _ (fun _ _ h h' => h (Prod.mk.inj h').1) hdist)
    (by intro r hr; obtain ⟨i, _, rfl⟩ := List.mem_map.mp hr; rfl) ⟨List.nodup_nil, by simp⟩
    (by intro r hr time ht; obtain ⟨i, _, rfl⟩ := List.mem_map.mp hr; cases ht; exact R) hsize hexec
  rw [htab]
  have hgo : calculateFeatureMatrix a = calculateFeatureMatrix { a with instanceIds := some ids } := by
    rcases hids with h | ⟨h, rfl⟩
    · rw [← h]
    · exact cfm_all_instances a f0 fs hfs t hcut h R.entityOk R.window
  rw [hgo, C33_single_partial { a with instanceIds := some ids } f0 fs hfs t hcut happ ids rfl hne hdist R hsize hexec]
  simp only [List.append_nil, List.map_map, Function.comp_def]

section
variable {o : EncOpts} {isinName : String → List Val → String} {read : EFeat → Feat} {discrete : Feat → Bool} {inplace : Bool} {t t' left : Table}
  {outs : List EOut}

/-- C81. Features are encoded on some matrix. On any data, at a single cutoff time or the current one, for given instances that are
visible then or for all, calculating the returned features gives the rows of the original features with the same labels encoded. -/
theorem C81_single_partial (a : CfmArgs) (f0 : Feat) (fs : List Feat) (hf : a.features = f0 :: fs)
    (hread : ∀ f ∈ a.features, read (encodeView discrete f) = f)
    (henc : encodeFeatures o inplace t (a.features.map (encodeView discrete)) = .ok (t', outs, left)) (hne : outs ≠ []) (time : Int)
    (hcut : a.cutoff = .single time ∨ (a.cutoff = .missing ∧ a.now = time)) (happ : a.approximate = none) (ids : List Val)
    (hids : a.instanceIds = some ids ∨ (a.instanceIds = none ∧ ids = (worldAt a.env time).ids f0.entity)) (hrows : ids ≠ []) (hdist : ids.Nodup)
    (hvis : ∀ i ∈ ids, i ∈ (worldAt a.env time).ids f0.entity)
    (hcols : (a.features.flatMap Feat.names).Nodup) (hcols' : (outs.flatMap (outNames o)).Nodup)
    (R : RegularAt a.env a.features f0.entity time)
    (R' : RegularAt a.env (outs.map (encodedFeature o.eqName isinName read)) f0.entity time)
    (hsize : SizeOk a.chunkSize) (hexec : Fair a.exec) :
    ∃ m m', calculateFeatureMatrix a = .ok m ∧
      calculateFeatureMatrix { a with features := outs.map (encodedFeature o.eqName isinName read) } = .ok m' ∧
      m'.cols = outs.flatMap (outNames o) ∧ m.rows.map (fun r => r.1) = ids ∧
      m'.rows.map (fun r => (r.1, r.2.1)) = m.rows.map (fun r => (r.1, r.2.1)) ∧ (∀ r ∈ m'.rows, r.2.2.length = m'.cols.length) ∧
      ∀ (i : Nat) r r', (matrixFrame m).rows[i]? = some r → (matrixFrame m').rows[i]? = some r' → ∀ x ∈ outs, RightCells o r r' x := by
  have hd : ((ids.map fun i => (⟨i, some time, []⟩ : CutRow)).map fun r => (r.id, r.time)).Nodup := by
    rw [List.map_map]
    exact List.Pairwise.map _ (fun _ _ h h' => h (Prod.mk.inj h').1) hdist
  obtain ⟨m, m', h1, h2, h3, h4, h5, h6⟩ := C81_new_data_partial (isinName := isinName)
    { a with cutoff := .table [] (ids.map fun i => ⟨i, some time, []⟩) } f0 fs hf hread henc hne [] _ rfl happ (by simpa using hrows)
    (by intro r hr; obtain ⟨i, hi, rfl⟩ := List.mem_map.mp hr; exact ⟨time, rfl, hvis i hi⟩) hd
    (by intro r hr; obtain ⟨i, _, rfl⟩ := List.mem_map.mp hr; rfl) (by rw [List.append_nil]; exact hcols) (by rw [List.append_nil]; exact hcols')
    (by intro r hr u hu; obtain ⟨i, _, rfl⟩ := List.mem_map.mp hr; cases hu; exact R)
    (by intro r hr u hu; obtain ⟨i, _, rfl⟩ := List.mem_map.mp hr; cases hu; exact R') hsize hexec
  have e1 := C33_single_is_table_partial a f0.entity (by rw [hf]; simp) time hcut happ ids hids hrows hdist R hsize hexec
  have e2 := C33_single_is_table_partial { a with features := outs.map (encodedFeature o.eqName isinName read) } f0.entity
    (by simpa using hne) time hcut happ ids hids hrows hdist R' hsize hexec
  have hm : m.rows.map (fun r => r.1) = ids := by
    obtain ⟨i0, hi0⟩ := List.exists_mem_of_ne_nil ids hrows
    have htab := C33_table_partial { a with cutoff := .table [] (ids.map fun i => ⟨i, some time, []⟩) } f0 fs hf [] _ rfl happ
      ⟨_, List.mem_map.mpr ⟨i0, hi0, rfl⟩, by simp⟩ hd
      (by intro r hr; obtain ⟨i, _, rfl⟩ := List.mem_map.mp hr; rfl) ⟨List.nodup_nil, by simp⟩
      (by intro r hr u hu; obtain ⟨i, _, rfl⟩ := List.mem_map.mp hr; cases hu; exact R) hsize hexec
    rw [htab] at h1
    cases h1
    simp [List.map_map, Function.comp_def]
  refine ⟨m, m', e1.trans h1, e2.trans h2, by rw [h3, List.append_nil], hm, h4, h5, fun i r r' hr hr' => (h6 i r r' hr hr').1⟩

/-- C81. On the data that was encoded, at a single cutoff time, calculating the returned features gives the columns and cells of the
returned matrix. -/
theorem C81_single_same_data_partial (a : CfmArgs) (f0 : Feat) (fs : List Feat) (hf : a.features = f0 :: fs)
    (hread : ∀ f ∈ a.features, read (encodeView discrete f) = f) {m : Matrix} (hm : calculateFeatureMatrix a = .ok m)
    (henc : encodeFeatures o inplace (matrixFrame m) (a.features.map (encodeView discrete)) = .ok (t', outs, left)) (hne : outs ≠ [])
    (ha : NewNamesApart o (matrixFrame m) (a.features.map (encodeView discrete))) (hnamed : ∀ f ∈ a.features, f.names.length ≤ 1 → SingleOutput f)
    (total : ∀ a b, o.le a b = true ∨ o.le b a = true) (trans : ∀ a b c, o.le a b = true → o.le b c = true → o.le a c = true)
    (hd : o.dropFirst = true → ∃ n, o.topN = .all n) (h0 : ∀ f ∈ a.features, 0 ≤ limitFor o (encodeView discrete f)) (time : Int)
    (hcut : a.cutoff = .single time ∨ (a.cutoff = .missing ∧ a.now = time)) (happ : a.approximate = none) (ids : List Val)
    (hids : a.instanceIds = some ids ∨ (a.instanceIds = none ∧ ids = (worldAt a.env time).ids f0.entity)) (hrows : ids ≠ []) (hdist : ids.Nodup)
    (hvis : ∀ i ∈ ids, i ∈ (worldAt a.env time).ids f0.entity)
    (hcols : (a.features.flatMap Feat.names).Nodup) (hcols' : (outs.flatMap (outNames o)).Nodup)
    (R : RegularAt a.env a.features f0.entity time)
    (R' : RegularAt a.env (outs.map (encodedFeature o.eqName isinName read)) f0.entity time)
    (hsize : SizeOk a.chunkSize) (hexec : Fair a.exec) :
    ∃ m', calculateFeatureMatrix { a with features := outs.map (encodedFeature o.eqName isinName read) } = .ok m' ∧ m'.cols = t'.cols ∧
      m'.rows.map (fun r => (r.1, r.2.1)) = m.rows.map (fun r => (r.1, r.2.1)) ∧
      m'.rows.map (fun r => r.2.2) = t'.rows.map fun r => t'.cols.map r := by
  have e1 := C33_single_is_table_partial a f0.entity (by rw [hf]; simp) time hcut happ ids hids hrows hdist R hsize hexec
  have e2 := C33_single_is_table_partial { a with features := outs.map (encodedFeature o.eqName isinName read) } f0.entity
    (by simpa using hne) time hcut happ ids hids hrows hdist R' hsize hexec
  rw [e2]
  refine C81_same_data_partial (isinName := isinName) { a with cutoff := .table [] (ids.map fun i => ⟨i, some time, []⟩) } f0 fs hf hread
    (e1.symm.trans hm) henc hne ha hnamed total trans hd h0 [] _ rfl happ (by simpa using hrows)
    (by intro r hr; obtain ⟨i, hi, rfl⟩ := List.mem_map.mp hr; exact ⟨time, rfl, hvis i hi⟩) ?_
    (by intro r hr; obtain ⟨i, _, rfl⟩ := List.mem_map.mp hr; rfl) (by rw [List.append_nil]; exact hcols) (by rw [List.append_nil]; exact hcols')
    (by intro r hr u hu; obtain ⟨i, _, rfl⟩ := List.mem_map.mp hr; cases hu; exact R)
    (by intro r hr u hu; obtain ⟨i, _, rfl⟩ := List.mem_map.mp hr; cases hu; exact R') hsize hexec
  rw [List.map_map]
  exact List.Pairwise.map _ (fun _ _ h h' => h (Prod.mk.inj h').1) hdist

end

open EncodedExample CalcExample in
/-- The hypotheses hold for all sessions at time 9. -/
example : ∃ t' left, encodeFeatures opts false (matrixFrame matrix) (targets.map (encodeView discrete)) = .ok (t', outs, left) ∧
    (worldAt env 9).ids lookup.entity ≠ [] ∧ ((worldAt env 9).ids lookup.entity).Nodup ∧
    ∃ m m', calculateFeatureMatrix { call with cutoff := .single 9 } = .ok m ∧
      calculateFeatureMatrix { call with cutoff := .single 9, features := outs.map (encodedFeature opts.eqName isinName reading) } = .ok m' ∧
      m.rows.map (fun r => r.1) = (worldAt env 9).ids lookup.entity := by
  obtain ⟨t', left, h⟩ := encoded
  refine ⟨t', left, h, by decide +kernel, by decide +kernel, ?_⟩
  obtain ⟨m, m', h1, h2, _, h3, _⟩ := C81_single_partial (isinName := isinName) { call with cutoff := .single 9 } lookup _ rfl read_view h (by decide) 9
    (.inl rfl) rfl _ (.inr ⟨rfl, rfl⟩) (by decide +kernel) (by decide +kernel) (fun _ h => h) (by decide) (by decide) (CfmExample.regularAt 9)
    (computable 9) (by
      intro s hs
      have : s = 2 := (Option.some.inj hs).symm
      subst this
      decide) trivial
  exact ⟨m, m', h1, h2, h3⟩

namespace EncodedSingleExample
open EncodedExample CalcExample

def call2 : CfmArgs := { call with cutoff := .single 9, instanceIds := some [.num 12, .num 10] }
def matrix2 : Matrix :=
  { cols := ["customers.SUM(sessions.amount)", "-(amount)"], rows := [(.num 12, some 9, [.num 109, .num (-9)]), (.num 10, some 9, [.num 12, .num (-5)])] }

theorem matrix2_eq : calculateFeatureMatrix call2 = .ok matrix2 := by decide +kernel
theorem encoded2 : ∃ t' left, encodeFeatures opts false (matrixFrame matrix2) (targets.map (encodeView discrete)) = .ok (t', outs, left) := ⟨_, _, rfl⟩

theorem occurs2 {f : EFeat} (hf : f ∈ targets.map (encodeView discrete)) {l : Val} (h : Occurs (matrixFrame matrix2) f l) :
    (f, l) ∈ [(vLookup, Val.num 109), (vLookup, .num 12), (vMinus, .num (-9)), (vMinus, .num (-5))] := by
  obtain ⟨_, r, hr, rfl⟩ := h
  rw [views] at hf
  simp only [List.mem_cons, List.not_mem_nil, or_false] at hf
  simp only [matrixFrame, matrix2, List.map_cons, List.map_nil, List.mem_cons, List.not_mem_nil, or_false] at hr
  rcases hf with rfl | rfl <;> rcases hr with rfl | rfl <;> decide

theorem newNames2 : NewNamesApart opts (matrixFrame matrix2) (targets.map (encodeView discrete)) := by
  refine ⟨by decide, ?_, ?_, ?_⟩
  · intro f hf l h
    have := occurs2 hf h
    simp only [List.mem_cons, Prod.mk.injEq, List.not_mem_nil, or_false] at this
    rcases this with ⟨rfl, rfl⟩ | ⟨rfl, rfl⟩ | ⟨rfl, rfl⟩ | ⟨rfl, rfl⟩ <;> decide
  · intro f hf g hg l m hl hm he
    have h1 := occurs2 hf hl
    have h2 := occurs2 hg hm
    simp only [List.mem_cons, Prod.mk.injEq, List.not_mem_nil, or_false] at h1 h2
    rcases h1 with ⟨rfl, rfl⟩ | ⟨rfl, rfl⟩ | ⟨rfl, rfl⟩ | ⟨rfl, rfl⟩ <;>
      rcases h2 with ⟨rfl, rfl⟩ | ⟨rfl, rfl⟩ | ⟨rfl, rfl⟩ | ⟨rfl, rfl⟩ <;>
      first
      | exact ⟨rfl, rfl⟩
      | exact absurd he (by decide)
  · intro f hf g hg l hl
    have h1 := occurs2 hf hl
    rw [views] at hg
    simp only [List.mem_cons, Prod.mk.injEq, List.not_mem_nil, or_false] at h1 hg
    rcases h1 with ⟨rfl, rfl⟩ | ⟨rfl, rfl⟩ | ⟨rfl, rfl⟩ | ⟨rfl, rfl⟩ <;> rcases hg with rfl | rfl <;> decide

end EncodedSingleExample

open EncodedExample CalcExample EncodedSingleExample in
/-- The hypotheses of `C81_single_same_data_partial` hold for two sessions at time 9. -/
example : ∃ t' left, encodeFeatures opts false (matrixFrame matrix2) (targets.map (encodeView discrete)) = .ok (t', outs, left) ∧
    ∃ m', calculateFeatureMatrix { call2 with features := outs.map (encodedFeature opts.eqName isinName reading) } = .ok m' ∧ m'.cols = t'.cols ∧
      m'.rows.map (fun r => (r.1, r.2.1)) = matrix2.rows.map (fun r => (r.1, r.2.1)) ∧ m'.rows.map (fun r => r.2.2) = t'.rows.map fun r => t'.cols.map r := by
  obtain ⟨t', left, h⟩ := encoded2
  refine ⟨t', left, h, C81_single_same_data_partial call2 _ _ rfl read_view matrix2_eq h (by decide) newNames2 ?_ (fun _ _ => .inl rfl)
    (fun _ _ _ _ _ => rfl) (fun h => by cases h) (fun f _ => by show (0 : Int) ≤ 1; decide) 9 (.inl rfl) rfl _ (.inl rfl) (by decide) (by decide)
    (by decide +kernel) (by decide) (by decide) (CfmExample.regularAt 9) (computable 9) ?_ trivial⟩
  · intro f hf _
    have hf' : f ∈ targets := hf
    simp only [targets, List.mem_cons, List.not_mem_nil, or_false] at hf'
    rcases hf' with rfl | rfl <;> rfl
  · intro s hs
    have : s = 2 := (Option.some.inj hs).symm
    subst this
    decide

end FT
