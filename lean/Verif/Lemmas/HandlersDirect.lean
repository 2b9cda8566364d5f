import Verif.Lemmas.HandlersGroup
/-! # Direct features -/
namespace FT
open Spec

theorem lastPerBase_of_nodup (l : List (String × String)) (h : (l.map Prod.snd).Nodup) : lastPerBase l = l := by
  induction l with
  | nil => rfl
  | cons a l ih =>
    simp only [List.map_cons, List.nodup_cons] at h
    have hno : l.any (fun x => x.2 == a.2) = false := by
      rw [List.any_eq_false]
      intro x hx
      simp only [beq_iff_eq]
      intro hxa
      exact h.1 (List.mem_map.mpr ⟨x, hx, hxa⟩)
    simp [lastPerBase, hno, ih h.2]

theorem orElse_null (v : Val) : orElse .null v = v := by
  unfold orElse; split <;> simp_all

theorem calcDirect_ok {w : World} {M M' idx e B L lok D I} {t : Table} (h : FrameOk w M idx e B L lok D I t) (hidx : idx ∈ B)
    (fs : List Feat) (hne : fs ≠ []) (hnodup : fs.Nodup) (rel : Relationship) (dfs : DTrie) (parent : Table) (J : List Val)
    (hM : ∀ f ∈ fs, M f = meaningStep w f.info (f.bases.map M') (f.wh.map M'))
    (hpar : (Trie.nodeAt none [(true, rel)] dfs).value = some parent)
    (hpids : parent.rows.map (fun r => r rel.parentV) = J) (hpcol : rel.parentV ∈ parent.cols)
    (hJ : ∀ x ∈ J, x ∈ w.ids rel.parentE)
    (hcov : ∀ x ∈ I, w.cell e x rel.childV ∈ w.ids rel.parentE → w.cell e x rel.childV ∈ J)
    (hchild : rel.childV ∈ B)
    (hfs : ∀ f ∈ fs, ∃ b, f.kind = .direct rel ∧ f.entity = e ∧ f.bases = [b] ∧ b.names.length = f.names.length ∧ b.names.Nodup ∧
      (∀ n ∈ b.names, n ∈ parent.cols) ∧ ∀ r ∈ parent.rows, b.names.map r = M' b (r rel.parentV))
    (hbases : ∀ f ∈ fs, ∀ g ∈ fs, f ≠ g → ∀ a ∈ f.bases, ∀ b ∈ g.bases, ∀ n ∈ a.names, n ∉ b.names)
    (hnd : ∀ f ∈ fs, f.names.Nodup)
    (hnew : ∀ f ∈ fs, (∀ n ∈ f.names, n ∉ t.cols) ∨
      ((∀ n ∈ f.names, n ∈ t.cols) ∧ f.dflt = .null ∧ ∀ r ∈ t.rows, f.names.map r = M f (r idx)))
    (hdisj : ∀ f ∈ fs, ∀ g ∈ fs, f ≠ g → ∀ n ∈ f.names, n ∉ g.names) :
    ∃ t', calcDirect fs t dfs = .ok t' ∧ FrameOk w M idx e B L lok (fun f => D f ∨ f ∈ fs) I t' := by
  have hpath : fs.head?.map Feat.path = some [(true, rel)] := by
    cases fs with
    | nil => exact absurd rfl hne
    | cons f fs =>
      obtain ⟨b, hk, _⟩ := hfs f (by simp)
      simp [Feat.path, hk, Kind.path]
  let pairs := fs.flatMap (directPairs t)
  have hpm : ∀ n c, (n, c) ∈ pairs ↔ ∃ f ∈ fs, ∃ b, f.bases = [b] ∧ (n, c) ∈ f.names.zip b.names ∧ n ∉ t.cols := by
    intro n c
    simp only [pairs, List.mem_flatMap]
    constructor
    · rintro ⟨f, hf, hm⟩
      obtain ⟨b, _, _, hb, _⟩ := hfs f hf
      simp only [directPairs, hb, List.mem_filter] at hm
      exact ⟨f, hf, b, hb, hm.1, by simpa using hm.2⟩
    · rintro ⟨f, hf, b, hb, hm, hn⟩
      refine ⟨f, hf, ?_⟩
      simp only [directPairs, hb, List.mem_filter]
      exact ⟨hm, by simpa using hn⟩
  have hlast : lastPerBase pairs = pairs := by
    apply lastPerBase_of_nodup
    simp only [pairs, List.map_flatMap, List.Nodup]
    rw [List.pairwise_flatMap]
    constructor
    · intro f hf
      obtain ⟨b, _, _, hb, hl, hbn, _⟩ := hfs f hf
      simp only [directPairs, hb]
      have : ((f.names.zip b.names).map Prod.snd) = b.names := List.map_snd_zip (by omega)
      have hs : (((f.names.zip b.names).filter fun nb => !t.cols.contains nb.1).map Prod.snd).Sublist b.names := by
        conv => rhs; rw [← this]
        exact List.filter_sublist.map _
      exact hs.nodup hbn
    · apply List.Pairwise.imp_of_mem _ hnodup
      intro f g hf hg hfg x hx y hy hxy
      subst hxy
      obtain ⟨⟨n, c⟩, hm, rfl⟩ := List.mem_map.mp hx
      obtain ⟨⟨n', c'⟩, hm', hcc⟩ := List.mem_map.mp hy
      obtain ⟨a, _, _, ha, _⟩ := hfs f hf
      obtain ⟨b, _, _, hb, _⟩ := hfs g hg
      simp only [directPairs, ha, List.mem_filter] at hm
      simp only [directPairs, hb, List.mem_filter] at hm'
      simp only at hcc
      exact hbases f hf g hg hfg a (by simp [ha]) b (by simp [hb]) c (List.of_mem_zip hm.1).2 (hcc ▸ (List.of_mem_zip hm'.1).2)
  have hpc : (hasCols parent (rel.parentV :: pairs.map Prod.snd) && t.cols.contains rel.childV) = true := by
    rw [Bool.and_eq_true, hasCols_iff]
    refine ⟨?_, by simpa using (h.base _ hchild).1⟩
    intro c hc
    rcases List.mem_cons.mp hc with rfl | hc
    · exact hpcol
    · obtain ⟨⟨n, c⟩, hm, rfl⟩ := List.mem_map.mp hc
      obtain ⟨f, hf, b, hb, hm, _⟩ := (hpm n c).mp hm
      obtain ⟨b', _, _, hb', _, _, hcs, _⟩ := hfs f hf
      rw [hb] at hb'; cases hb'
      exact hcs c (List.of_mem_zip hm).2
  let t' : Table := { cols := addCols t.cols (pairs.map Prod.fst)
                      rows := t.rows.map fun r => fillRow fs (r.put (mergedCells rel parent pairs r)) }
  have hnames : ∀ c, c ∈ pairs.map Prod.fst ↔ (∃ f ∈ fs, c ∈ f.names) ∧ c ∉ t.cols := by
    intro c
    constructor
    · intro hc
      obtain ⟨⟨n, b⟩, hm, rfl⟩ := List.mem_map.mp hc
      obtain ⟨f, hf, b', _, hm, hn⟩ := (hpm n b).mp hm
      exact ⟨⟨f, hf, (List.of_mem_zip hm).1⟩, hn⟩
    · rintro ⟨⟨f, hf, hc⟩, hn⟩
      obtain ⟨b, _, _, hb, hl, _⟩ := hfs f hf
      obtain ⟨k, hk⟩ := List.getElem?_of_mem hc
      have hkl := (List.getElem?_eq_some_iff.mp hk).1
      have hz : (f.names.zip b.names)[k]? = some (c, b.names[k]'(by omega)) :=
        List.getElem?_zip_eq_some.mpr ⟨hk, List.getElem?_eq_getElem _⟩
      exact List.mem_map.mpr ⟨_, (hpm _ _).mpr ⟨f, hf, b, hb, List.mem_of_getElem? hz, hn⟩, rfl⟩
  refine ⟨t', ?_, ?_⟩
  · simp only [calcDirect, hpath, hpar]
    have : lastPerBase (fs.flatMap (directPairs t)) = pairs := hlast
    simp only [this]
    rw [if_pos hpc]
  -- the old columns stay
  have hold : ∀ r : Row, ∀ c ∈ t.cols, fillRow fs (r.put (mergedCells rel parent pairs r)) c = r c := by
    intro r c hc
    have hput : (r.put (mergedCells rel parent pairs r)) c = r c := by
      apply put_absent
      intro v hv
      have : c ∈ pairs.map Prod.fst := by
        unfold mergedCells at hv
        split at hv <;>
        · obtain ⟨nb, hm, heq⟩ := List.mem_map.mp hv
          rw [← (Prod.mk.inj heq).1]
          exact List.mem_map.mpr ⟨nb, hm, rfl⟩
      exact ((hnames c).mp this).2 hc
    by_cases hin : ∃ f ∈ fs, c ∈ f.names
    · obtain ⟨f, hf, hn⟩ := hin
      rcases hnew f hf with h1 | ⟨_, hd, _⟩
      · exact absurd hc (h1 c hn)
      · rw [fillRow_mem fs _ f hf c hn, hput, hd, fillDflt_eq, orElse_null]
        intro g hg hgn
        apply Classical.byContradiction
        intro hgf
        exact hdisj g hg f hf hgf c hgn hn
    · rw [fillRow_absent fs _ c fun g hg hgn => hin ⟨g, hg, hgn⟩, hput]
  refine h.extend hidx fs t' (fun _ r => fillRow fs (r.put (mergedCells rel parent pairs r))) ?_ ?_ ?_ ?_ ?_ ?_
  · simp only [t']
    apply List.ext_getElem?
    intro i
    simp [List.getElem?_mapIdx]
  · intro c hc; simp only [t', mem_addCols]; exact .inl hc
  · intro c hc
    simp only [t', mem_addCols, hnames] at hc
    rcases hc with hc | hc
    · exact .inl hc
    · exact .inr hc.1
  · intro f hf n hn
    simp only [t', mem_addCols, hnames]
    by_cases hc : n ∈ t.cols
    · exact .inl hc
    · exact .inr ⟨⟨f, hf, hn⟩, hc⟩
  · intro i r _ c hc
    exact hold r c hc
  · intro i r hr f hf
    have hrm := List.mem_of_getElem? hr
    rcases hnew f hf with hn | ⟨h1, _, h3⟩
    · obtain ⟨b, hk, he, hb, hl, hbn, hbc, hbv⟩ := hfs f hf
      rw [hM f hf]
      have hk' : f.info.kind = .direct rel := hk
      have he' : f.info.entity = e := he
      simp only [meaningStep, hk', he', hb, List.map_cons, List.map_nil]
      have hy : r rel.childV = w.cell e (r idx) rel.childV := (h.base _ hchild).2 r hrm
      -- the value of each output
      have hmc : ∀ (k : Nat) (n c : String) (v : Val), f.names[k]? = some n → b.names[k]? = some c →
          (n, v) ∈ mergedCells rel parent pairs r → (∀ v', (n, v') ∈ mergedCells rel parent pairs r → v' = v) →
          fillRow fs (r.put (mergedCells rel parent pairs r)) n = orElse f.dflt v := by
        intro k n c v hkn hkc hm hu
        rw [fillRow_mem fs _ f hf n (List.mem_of_getElem? hkn), put_mem r _ n v hm hu, fillDflt_eq]
        intro g hg hgn
        apply Classical.byContradiction
        intro hgf
        exact hdisj g hg f hf hgf n hgn (List.mem_of_getElem? hkn)
      have hpu : ∀ (k : Nat) (n c : String), f.names[k]? = some n → b.names[k]? = some c → (n, c) ∈ pairs ∧
          ∀ c', (n, c') ∈ pairs → c' = c := by
        intro k n c hkn hkc
        have hz : (n, c) ∈ f.names.zip b.names :=
          List.mem_of_getElem? (i := k) (List.getElem?_zip_eq_some.mpr ⟨hkn, hkc⟩)
        refine ⟨(hpm n c).mpr ⟨f, hf, b, hb, hz, hn n (List.mem_of_getElem? hkn)⟩, ?_⟩
        intro c' hc'
        obtain ⟨g, hg, b', hb', hm', _⟩ := (hpm n c').mp hc'
        have hgf : g = f := by
          apply Classical.byContradiction
          intro hgf
          exact hdisj g hg f hf hgf n (List.of_mem_zip hm').1 (List.mem_of_getElem? hkn)
        subst hgf
        rw [hb] at hb'; cases hb'
        exact zip_unique (hnd g hf) hz hm'
      by_cases hin : w.cell e (r idx) rel.childV ∈ w.ids rel.parentE
      · rw [if_pos hin]
        have hJm : w.cell e (r idx) rel.childV ∈ J := hcov (r idx) (by rw [← h.ids]; exact List.mem_map.mpr ⟨r, hrm, rfl⟩) hin
        rw [← hpids] at hJm
        obtain ⟨p0, hp0, hp0v⟩ := List.mem_map.mp hJm
        obtain ⟨p, hp⟩ : ∃ p, parent.rows.find? (fun p => p rel.parentV = r rel.childV) = some p := by
          apply Option.isSome_iff_exists.mp
          rw [List.find?_isSome]
          exact ⟨p0, hp0, by simp [hp0v, hy]⟩
        have hpv : p rel.parentV = w.cell e (r idx) rel.childV := by
          have := List.find?_some hp
          simpa [hy] using this
        have hmcells : mergedCells rel parent pairs r = pairs.map fun nb => (nb.1, p nb.2) := by
          simp only [mergedCells, hp]
        rw [← hpv, ← hbv p (List.mem_of_find?_eq_some hp)]
        apply List.ext_getElem (by simp [hl])
        intro k h1 h2
        have hkl : k < f.names.length := by simpa using h1
        have hkb : k < b.names.length := by omega
        simp only [List.getElem_map]
        obtain ⟨hp1, hp2⟩ := hpu k _ _ (List.getElem?_eq_getElem hkl) (List.getElem?_eq_getElem hkb)
        refine hmc k _ _ _ (List.getElem?_eq_getElem hkl) (List.getElem?_eq_getElem hkb) ?_ ?_
        · simp only [hmcells]
          exact List.mem_map.mpr ⟨_, hp1, rfl⟩
        · intro v' hv'
          simp only [hmcells] at hv'
          obtain ⟨⟨n', c'⟩, hm, heq⟩ := List.mem_map.mp hv'
          obtain ⟨h1, h2⟩ := Prod.mk.inj heq
          simp only at h1 h2
          subst h1
          rw [← h2, hp2 c' hm]
      · rw [if_neg hin]
        have hp : parent.rows.find? (fun p => p rel.parentV = r rel.childV) = none := by
          rw [List.find?_eq_none]
          intro p hp
          simp only [decide_eq_true_eq]
          intro hpv
          apply hin
          rw [← hy, ← hpv]
          apply hJ
          rw [← hpids]
          exact List.mem_map.mpr ⟨p, hp, rfl⟩
        have hmcells : mergedCells rel parent pairs r = pairs.map fun nb => (nb.1, .null) := by
          simp only [mergedCells, hp]
        apply List.map_congr_left
        intro n hn'
        obtain ⟨k, hkn⟩ := List.getElem?_of_mem hn'
        have hkl := (List.getElem?_eq_some_iff.mp hkn).1
        have hkb : k < b.names.length := by omega
        obtain ⟨hp1, _⟩ := hpu k n _ hkn (List.getElem?_eq_getElem hkb)
        rw [hmc k n _ .null hkn (List.getElem?_eq_getElem hkb)]
        · simp only [orElse, if_true]; rfl
        · rw [hmcells]; exact List.mem_map.mpr ⟨_, hp1, rfl⟩
        · intro v' hv'
          rw [hmcells] at hv'
          obtain ⟨_, _, heq⟩ := List.mem_map.mp hv'
          exact (Prod.mk.inj heq).2.symm
    · rw [← h3 r hrm]
      exact List.map_congr_left fun n hn => hold r n (h1 n hn)

end FT
