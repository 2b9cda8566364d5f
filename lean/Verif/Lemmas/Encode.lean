import Verif.Spec.Encode
import Verif.Lemmas.Query
import Verif.Lemmas.Sort
/-! Lemmas on one-hot encoding. -/
namespace FT
open Spec

theorem rankedLabels_spec {le : Val → Val → Bool} (total : ∀ a b, le a b = true ∨ le b a = true)
    (trans : ∀ a b c, le a b = true → le b c = true → le a c = true) (col : List Val) : RankedValues le col (rankedLabels le col) := by
  unfold rankedLabels RankedValues
  refine ⟨(isort_perm _ _).nodup_iff.mpr (nodup_dedup _), ?_, ?_⟩
  · intro x
    rw [mem_isort, mem_dedup, mem_dropna]
  · have := isort_sorted (fun a b => decide (col.count b < col.count a) || (decide (col.count b = col.count a) && le b a))
      (by
        intro a b
        simp only [Bool.or_eq_true, Bool.and_eq_true, decide_eq_true_eq]
        have := total b a
        rcases Nat.lt_trichotomy (col.count a) (col.count b) with h | h | h
        · exact .inr (.inl h)
        · rcases this with h' | h'
          · exact .inl (.inr ⟨h.symm, h'⟩)
          · exact .inr (.inr ⟨h, h'⟩)
        · exact .inl (.inl h))
      (by
        intro a b c
        simp only [Bool.or_eq_true, Bool.and_eq_true, decide_eq_true_eq]
        rintro (h1 | ⟨h1, h1'⟩) (h2 | ⟨h2, h2'⟩)
        · exact .inl (by omega)
        · exact .inl (by omega)
        · exact .inl (by omega)
        · exact .inr ⟨by omega, trans _ _ _ h2' h1'⟩) (dedup (dropna col))
    refine this.imp ?_
    intro a b h
    simpa using h

theorem rightCells_congr {o : EncOpts} {r r' r'' : Row} {e : EOut} (h : ∀ c ∈ outNames o e, r' c = r'' c) (hr : RightCells o r r' e) : RightCells o r r'' e := by
  cases e with
  | keep f => exact fun c hc => (h c hc).symm.trans (hr c hc)
  | equals f l => exact (h _ (by simp [outNames])).symm.trans hr
  | unknown f ls => exact (h _ (by simp [outNames])).symm.trans hr

/-- What the loop keeps up, `gone` being the columns dropped. -/
structure EncInv (o : EncOpts) (t : Table) (gone : List String) (s : EncState) : Prop where
  rows : ∃ g : Row → Row, s.X.rows = t.rows.map g ∧ ∀ r, (∀ c ∈ t.cols, g r c = r c) ∧ ∀ e ∈ s.outs, RightCells o r (g r) e
  names : s.newCols = s.outs.flatMap (outNames o)
  has : ∀ c ∈ s.newCols, c ∈ s.X.cols
  kept : ∀ c ∈ t.cols, c ∉ gone → c ∈ s.X.cols

theorem encInv_assign {o : EncOpts} {t : Table} {gone : List String} {s : EncState} (h : EncInv o t gone s) {n : String} {v : Row → Val} {e : EOut}
    (hn : outNames o e = [n]) (h1 : n ∉ t.cols) (h2 : n ∉ s.newCols)
    (hv : ∀ r r' r'' : Row, (∀ c ∈ t.cols, r' c = r c) → r'' n = v r' → RightCells o r r'' e) :
    EncInv o t gone ⟨s.X.assign n v, s.outs ++ [e], s.newCols ++ [n]⟩ := by
  obtain ⟨⟨g, hg, hr⟩, hnames, hhas, hkept⟩ := h
  have hcols : ∀ c, c ∈ (s.X.assign n v).cols ↔ c ∈ s.X.cols ∨ c = n := by
    intro c
    unfold Table.assign
    by_cases hc : s.X.cols.contains n = true
    · simp only [hc, if_true]
      rw [List.contains_iff_mem] at hc
      exact ⟨.inl, fun h => h.elim id fun e => e ▸ hc⟩
    · simp only [hc, if_false, Bool.false_eq_true, List.mem_append, List.mem_singleton]
  refine ⟨⟨fun r c => if c = n then v (g r) else g r c, ?_, ?_⟩, ?_, ?_, ?_⟩
  · simp only [Table.assign, hg, List.map_map]
    rfl
  · intro r
    refine ⟨fun c hc => ?_, fun e' he' => ?_⟩
    · have : c ≠ n := fun e => h1 (e ▸ hc)
      simp only [this, if_false]
      exact (hr r).1 c hc
    · rcases List.mem_append.mp he' with he' | he'
      · refine rightCells_congr ?_ ((hr r).2 e' he')
        intro c hc
        have : c ≠ n := fun e => h2 (by rw [hnames, ← e]; exact List.mem_flatMap.mpr ⟨e', he', hc⟩)
        simp [this]
      · simp only [List.mem_singleton] at he'
        subst he'
        exact hv r (g r) _ (hr r).1 (by simp)
  · simp [hnames, hn]
  · intro c hc
    rw [hcols]
    rcases List.mem_append.mp hc with hc | hc
    · exact .inl (hhas c hc)
    · exact .inr (by simpa using hc)
  · intro c hc hg
    rw [hcols]
    exact .inl (hkept c hc hg)

/-- The labels of one feature. -/
theorem encInv_labels {o : EncOpts} {t : Table} {gone : List String} {f : EFeat} (hf : f.name ∈ t.cols) : ∀ (ls : List Val) {s : EncState},
    EncInv o t gone s → (∀ l ∈ ls, o.eqName f.name l ∉ t.cols ∧ o.eqName f.name l ∉ s.newCols) → (ls.map (o.eqName f.name)).Nodup →
    EncInv o t gone (addLabels o f ls s) ∧ (addLabels o f ls s).outs = s.outs ++ ls.map (.equals f)
  | [], s, h, _, _ => ⟨h, by simp [addLabels]⟩
  | l :: ls, s, h, hl, hn => by
    rw [List.map_cons, List.nodup_cons] at hn
    have h1 : EncInv o t gone ⟨s.X.assign (o.eqName f.name l) fun r => .bool (decide (r f.name = l)), s.outs ++ [.equals f l], s.newCols ++ [o.eqName f.name l]⟩ := by
      refine encInv_assign h (e := .equals f l) rfl (hl l List.mem_cons_self).1 (hl l List.mem_cons_self).2 ?_
      intro r r' r'' ht hv
      rw [RightCells, hv]
      simp only [ht f.name hf]
    rw [addLabels]
    have h2 := encInv_labels hf ls h1 (fun m hm => ⟨(hl m (List.mem_cons_of_mem _ hm)).1, by
      simp only [List.mem_append, List.mem_singleton, not_or]
      exact ⟨(hl m (List.mem_cons_of_mem _ hm)).2, fun e => hn.1 (by rw [← e]; exact List.mem_map.mpr ⟨m, hm, rfl⟩)⟩⟩) hn.2
    exact ⟨h2.1, by rw [h2.2]; simp⟩

theorem encInv_unknown {o : EncOpts} {t : Table} {gone : List String} {f : EFeat} (hf : f.name ∈ t.cols) (ls : List Val) {s : EncState}
    (h : EncInv o t gone s) (h1 : f.name ++ " is unknown" ∉ t.cols) (h2 : f.name ++ " is unknown" ∉ s.newCols) :
    EncInv o t gone (addUnknown o f ls s) ∧ (addUnknown o f ls s).outs = s.outs ++ if o.includeUnknown then [.unknown f ls] else [] := by
  unfold addUnknown
  split
  · refine ⟨encInv_assign h (e := .unknown f ls) rfl h1 h2 ?_, rfl⟩
    intro r r' r'' ht hv
    rw [RightCells, hv]
    simp only [ht f.name hf]
    congr 1
    rw [Bool.eq_iff_iff]
    simp
  · exact ⟨h, by simp⟩

theorem leftAsIs_iff (o : EncOpts) (f : EFeat) : leftAsIs o f = false ↔ Encodes o f := by
  unfold leftAsIs Encodes
  cases h : o.toEncode with
  | none => simp [and_comm]
  | some l =>
    simp only [Bool.or_eq_false_iff, decide_eq_false_iff_not, Bool.not_eq_false', List.contains_iff_mem, Option.some.injEq, forall_eq', Nat.not_lt, gt_iff_lt]
    constructor
    · rintro ⟨⟨a, b⟩, c⟩; exact ⟨b, a, c⟩
    · rintro ⟨b, a, c⟩; exact ⟨⟨a, b⟩, c⟩

/-- The outputs of the features done so far. -/
def FromDone (o : EncOpts) (t : Table) (done : List EFeat) (e : EOut) : Prop :=
  match e with
  | .keep f => f ∈ done
  | .equals f l => f ∈ done ∧ Encodes o f ∧ Occurs t f l
  | .unknown f _ => f ∈ done ∧ Encodes o f

theorem selectN_ok {o : EncOpts} {f : EFeat} (hd : o.dropFirst = true → ∃ n, o.topN = .all n) (h0 : 0 ≤ limitFor o f) (all : List Val) :
    ∃ n, selectN o f.name all.length = .ok n ∧
      pyHead n all = all.take (if o.dropFirst then max (min all.length (limitFor o f).toNat - 1) 1 else (limitFor o f).toNat) := by
  unfold selectN
  by_cases hdf : o.dropFirst = true
  · obtain ⟨n, hn⟩ := hd hdf
    have hl : limitFor o f = n := by simp [limitFor, hn]
    rw [if_pos hdf, hn]
    refine ⟨_, rfl, ?_⟩
    rw [if_pos hdf, hl]
    rw [hl] at h0
    unfold pyHead
    rw [if_pos (by omega)]
    congr 1
    omega
  · rw [if_neg hdf]
    have : ∃ n, (match o.topN with | .all n => (.ok n : Except PyErr Int) | .per d => .ok ((d.lookup f.name).getD 10)) = .ok n ∧ n = limitFor o f := by
      unfold limitFor
      cases o.topN <;> exact ⟨_, rfl, rfl⟩
    obtain ⟨n, h1, h2⟩ := this
    refine ⟨n, h1, ?_⟩
    rw [if_neg hdf, h2, pyHead, if_pos h0]

theorem expanded_append {o : EncOpts} {t : Table} {fs : List EFeat} {os : List EOut} {f : EFeat} {os' : List EOut} (h : Expanded o t fs os) (h' : Expansion o t f os') :
    Expanded o t (fs ++ [f]) (os ++ os') := by
  induction h with
  | nil => have := Expanded.cons h' (Expanded.nil (o := o) (t := t)); simpa using this
  | cons h1 _ ih => rw [List.cons_append, List.append_assoc]; exact .cons h1 ih

/-- The columns that encoding drops. -/
def goneCols (o : EncOpts) (done : List EFeat) : List String := (done.filter fun f => !leftAsIs o f).map EFeat.name

theorem names_apart {fs : List EFeat} (hn : (fs.flatMap EFeat.names).Nodup) {f g : EFeat} (hf : f ∈ fs) (hg : g ∈ fs) {c : String} (h1 : c ∈ f.names) (h2 : c ∈ g.names) : f = g := by
  induction fs with
  | nil => simp at hf
  | cons a fs ih =>
    rw [List.flatMap_cons, List.nodup_append] at hn
    rcases List.mem_cons.mp hf with rfl | hf' <;> rcases List.mem_cons.mp hg with rfl | hg'
    · rfl
    · exact absurd rfl (hn.2.2 c h1 c (List.mem_flatMap.mpr ⟨g, hg', h2⟩))
    · exact absurd rfl (hn.2.2 c h2 c (List.mem_flatMap.mpr ⟨f, hf', h1⟩))
    · exact ih hn.2.1 hf' hg'

theorem nodup_of_names {fs : List EFeat} (hn : (fs.flatMap EFeat.names).Nodup) (hne : ∀ f ∈ fs, f.names ≠ []) : fs.Nodup := by
  induction fs with
  | nil => simp
  | cons a fs ih =>
    rw [List.flatMap_cons, List.nodup_append] at hn
    rw [List.nodup_cons]
    refine ⟨?_, ih hn.2.1 fun f hf => hne f (List.mem_cons_of_mem _ hf)⟩
    intro ha
    obtain ⟨c, hc⟩ := List.exists_mem_of_ne_nil _ (hne a List.mem_cons_self)
    exact hn.2.2 c hc c (List.mem_flatMap.mpr ⟨a, ha, hc⟩) rfl

theorem encodeLoop_ok {o : EncOpts} {t : Table} {features : List EFeat} (hm : OfMatrix t features) (ha : NewNamesApart o t features)
    (total : ∀ a b, o.le a b = true ∨ o.le b a = true) (trans : ∀ a b c, o.le a b = true → o.le b c = true → o.le a c = true)
    (hd : o.dropFirst = true → ∃ n, o.topN = .all n) (h0 : ∀ f ∈ features, 0 ≤ limitFor o f) :
    ∀ (rest done : List EFeat) (s : EncState), features = done ++ rest → EncInv o t (goneCols o done) s → Expanded o t done s.outs →
      (∀ e ∈ s.outs, FromDone o t done e) →
      ∃ s', encodeLoop o s rest = .ok s' ∧ EncInv o t (goneCols o features) s' ∧ Expanded o t features s'.outs ∧ ∀ e ∈ s'.outs, FromDone o t features e
  | [], done, s, he, hi, hx, hfd => by
    rw [List.append_nil] at he
    subst he
    exact ⟨s, rfl, hi, hx, hfd⟩
  | f :: rest, done, s, he, hi, hx, hfd => by
    have hf : f ∈ features := by rw [he]; simp
    have hdone : ∀ g ∈ done, g ∈ features := fun g hg => by rw [he]; simp [hg]
    have hnd := nodup_of_names hm.2 fun g hg => (hm.1 g hg).2.1
    have hfnd : f ∉ done := fun h => by
      rw [he, List.nodup_append] at hnd
      exact hnd.2.2 f h f (by simp) rfl
    have he' : features = (done ++ [f]) ++ rest := by rw [he]; simp
    have hmono : ∀ e, FromDone o t done e → FromDone o t (done ++ [f]) e := by
      intro e
      cases e <;> simp only [FromDone, List.mem_append] <;> grind
    rw [encodeLoop]
    unfold encodeOne
    by_cases hl : leftAsIs o f = true
    · rw [if_pos hl]
      have hne : ¬Encodes o f := by rw [← leftAsIs_iff]; simp [hl]
      refine encodeLoop_ok hm ha total trans hd h0 rest (done ++ [f]) _ he' ?_ (expanded_append hx (.inl ⟨hne, rfl⟩)) ?_
      · obtain ⟨⟨g, hg, hr⟩, hnames, hhas, hkept⟩ := hi
        have hgone : goneCols o (done ++ [f]) = goneCols o done := by simp [goneCols, hl]
        rw [hgone]
        refine ⟨⟨g, hg, fun r => ⟨(hr r).1, ?_⟩⟩, by simp [hnames, outNames], ?_, hkept⟩
        · intro e he
          rcases List.mem_append.mp he with he | he
          · exact (hr r).2 e he
          · simp only [List.mem_singleton] at he
            subst he
            exact fun c hc => (hr r).1 c ((hm.1 f hf).1 c hc)
        · intro c hc
          rcases List.mem_append.mp hc with hc | hc
          · exact hhas c hc
          · refine hkept c ((hm.1 f hf).1 c hc) ?_
            intro hcg
            unfold goneCols at hcg
            obtain ⟨g', hg', rfl⟩ := List.mem_map.mp hcg
            obtain ⟨hg1, hg2⟩ := List.mem_filter.mp hg'
            have henc : Encodes o g' := (leftAsIs_iff o g').mp (by simpa using hg2)
            have : g'.name ∈ g'.names := by rw [(hm.1 g' (hdone g' hg1)).2.2 henc.2.1]; simp
            have := names_apart hm.2 hf (hdone g' hg1) hc this
            exact hfnd (this ▸ hg1)
      · intro e he
        rcases List.mem_append.mp he with he | he
        · exact hmono e (hfd e he)
        · simp only [List.mem_singleton] at he
          subst he
          simp [FromDone]
    · rw [if_neg hl]
      have henc : Encodes o f := (leftAsIs_iff o f).mp (by simpa using hl)
      have hfn := (hm.1 f hf).2.2 henc.2.1
      have hft : f.name ∈ t.cols := (hm.1 f hf).1 _ (by rw [hfn]; simp)
      have hfg : f.name ∉ goneCols o done := by
        intro hcg
        unfold goneCols at hcg
        obtain ⟨g', hg', hge⟩ := List.mem_map.mp hcg
        obtain ⟨hg1, hg2⟩ := List.mem_filter.mp hg'
        have henc' : Encodes o g' := (leftAsIs_iff o g').mp (by simpa using hg2)
        have h1 : g'.name ∈ g'.names := by rw [(hm.1 g' (hdone g' hg1)).2.2 henc'.2.1]; simp
        have := names_apart hm.2 hf (hdone g' hg1) (c := g'.name) (by rw [hfn, hge]; simp) h1
        exact hfnd (this ▸ hg1)
      rw [if_neg (by simpa using hi.kept _ hft hfg)]
      have hcol : (s.X.rows.map fun r => r f.name) = t.rows.map fun r => r f.name := by
        obtain ⟨g, hg, hr⟩ := hi.rows
        rw [hg, List.map_map]
        exact List.map_congr_left fun r _ => (hr r).1 _ hft
      simp only [hcol]
      have hrank := rankedLabels_spec total trans (t.rows.map fun r => r f.name)
      generalize rankedLabels o.le (t.rows.map fun r => r f.name) = all at hrank
      obtain ⟨n, hn, hhead⟩ := selectN_ok hd (h0 f hf) all
      simp only [hn, hhead]
      have hlab : LabelsOf o t f (all.take (if o.dropFirst then max (min all.length (limitFor o f).toNat - 1) 1 else (limitFor o f).toNat)) := ⟨all, hrank, rfl⟩
      generalize hls : all.take (if o.dropFirst then max (min all.length (limitFor o f).toNat - 1) 1 else (limitFor o f).toNat) = labels at hlab
      have hocc : ∀ l ∈ labels, Occurs t f l := by
        intro l hl'
        rw [← hls] at hl'
        have := (hrank.2.1 l).mp (List.mem_of_mem_take hl')
        refine ⟨this.2, ?_⟩
        obtain ⟨r, hr, hrl⟩ := List.mem_map.mp this.1
        exact ⟨r, hr, hrl⟩
      have hlnd : labels.Nodup := by rw [← hls]; exact hrank.1.sublist (List.take_sublist _ _)
      obtain ⟨ha1, ha2, ha3, ha4⟩ := ha
      -- no name of this feature was used before
      have hsrc : ∀ c ∈ s.newCols, c ∈ t.cols ∨ (∃ g ∈ done, ∃ l, Occurs t g l ∧ c = o.eqName g.name l) ∨ ∃ g ∈ done, Encodes o g ∧ c = g.name ++ " is unknown" := by
        intro c hc
        rw [hi.names] at hc
        obtain ⟨e, he, hc⟩ := List.mem_flatMap.mp hc
        have := hfd e he
        cases e with
        | keep g => exact .inl ((hm.1 g (hdone g this)).1 c hc)
        | equals g l => exact .inr (.inl ⟨g, this.1, l, this.2.2, by simpa [outNames] using hc⟩)
        | unknown g l => exact .inr (.inr ⟨g, this.1, this.2, by simpa [outNames] using hc⟩)
      have heq : ∀ l ∈ labels, o.eqName f.name l ∉ t.cols ∧ o.eqName f.name l ∉ s.newCols := by
        intro l hl'
        have h1 := ha2 f hf l (hocc l hl')
        refine ⟨h1, fun hc => ?_⟩
        rcases hsrc _ hc with h | ⟨g, hg, m, hm', h⟩ | ⟨g, hg, _, h⟩
        · exact h1 h
        · exact hfnd ((ha3 f hf g (hdone g hg) l m (hocc l hl') hm' h).1 ▸ hg)
        · exact ha4 f hf g (hdone g hg) l (hocc l hl') h
      have hnames : (labels.map (o.eqName f.name)).Nodup := by
        refine List.pairwise_map.mpr (hlnd.imp_of_mem ?_)
        intro a b ha' hb' hab e
        exact hab (ha3 f hf f hf a b (hocc a ha') (hocc b hb') e).2
      obtain ⟨hi1, ho1⟩ := encInv_labels hft labels hi heq hnames
      have hunk : f.name ++ " is unknown" ∉ (addLabels o f labels s).newCols := by
        rw [hi1.names, ho1, List.flatMap_append]
        intro hc
        rcases List.mem_append.mp hc with hc | hc
        · rw [← hi.names] at hc
          rcases hsrc _ hc with h | ⟨g, hg, m, hm', h⟩ | ⟨g, hg, henc', h⟩
          · exact ha1 f hf h
          · exact ha4 g (hdone g hg) f hf m hm' h.symm
          · have hfg' : f.name = g.name := by
              have := congrArg String.toList h
              simp only [String.toList_append] at this
              exact String.toList_inj.mp (List.append_cancel_right this)
            have h1 : g.name ∈ g.names := by rw [(hm.1 g (hdone g hg)).2.2 henc'.2.1]; simp
            have := names_apart hm.2 hf (hdone g hg) (c := g.name) (by rw [hfn, hfg']; simp) h1
            exact hfnd (this ▸ hg)
        · obtain ⟨e, he, hc⟩ := List.mem_flatMap.mp hc
          obtain ⟨l, hl', rfl⟩ := List.mem_map.mp he
          simp only [outNames, List.mem_singleton] at hc
          exact ha4 f hf f hf l (hocc l hl') hc.symm
      obtain ⟨hi2, ho2⟩ := encInv_unknown hft labels hi1 (ha1 f hf) hunk
      generalize addUnknown o f labels (addLabels o f labels s) = s2 at hi2 ho2
      rw [ho1, List.append_assoc] at ho2
      have hfd2 : ∀ e ∈ s2.outs, FromDone o t (done ++ [f]) e := by
        intro e he
        rw [ho2] at he
        rcases List.mem_append.mp he with he | he
        · exact hmono e (hfd e he)
        · rcases List.mem_append.mp he with he | he
          · obtain ⟨l, hl', rfl⟩ := List.mem_map.mp he
            exact ⟨by simp, henc, hocc l hl'⟩
          · split at he
            · simp only [List.mem_singleton] at he
              subst he
              exact ⟨by simp, henc⟩
            · simp at he
      refine encodeLoop_ok hm ⟨ha1, ha2, ha3, ha4⟩ total trans hd h0 rest (done ++ [f]) _ he' ?_ ?_ hfd2
      · obtain ⟨⟨g, hg, hr⟩, hnames2, hhas, hkept⟩ := hi2
        refine ⟨⟨g, hg, hr⟩, hnames2, ?_, ?_⟩
        · intro c hc
          simp only [Table.dropCol, List.mem_filter, bne_iff_ne, ne_eq]
          refine ⟨hhas c hc, ?_⟩
          rintro rfl
          rw [hnames2] at hc
          obtain ⟨e, he, hc⟩ := List.mem_flatMap.mp hc
          have hsub := hfd2 e he
          cases e with
          | keep g' =>
            have hg'd : g' ∈ done := by
              rw [ho2] at he
              rcases List.mem_append.mp he with he | he
              · exact hfd _ he
              · rcases List.mem_append.mp he with he | he
                · obtain ⟨l, _, h⟩ := List.mem_map.mp he; cases h
                · split at he <;> simp at he
            have := names_apart hm.2 hf (hdone g' hg'd) (c := f.name) (by rw [hfn]; simp) hc
            exact hfnd (this ▸ hg'd)
          | equals g' l =>
            simp only [outNames, List.mem_singleton] at hc
            have hg'f : g' ∈ features := by
              rcases List.mem_append.mp hsub.1 with h | h
              · exact hdone g' h
              · simp only [List.mem_singleton] at h; exact h ▸ hf
            exact ha2 g' hg'f l hsub.2.2 (hc ▸ hft)
          | unknown g' l =>
            simp only [outNames, List.mem_singleton] at hc
            have hg'f : g' ∈ features := by
              rcases List.mem_append.mp hsub.1 with h | h
              · exact hdone g' h
              · simp only [List.mem_singleton] at h; exact h ▸ hf
            exact ha1 g' hg'f (hc ▸ hft)
        · intro c hc hcg
          have hgone : goneCols o (done ++ [f]) = goneCols o done ++ [f.name] := by simp [goneCols, hl]
          rw [hgone, List.mem_append, List.mem_singleton, not_or] at hcg
          simp only [Table.dropCol, List.mem_filter, bne_iff_ne, ne_eq]
          exact ⟨hkept c hc hcg.1, hcg.2⟩
      · show Expanded o t (done ++ [f]) s2.outs
        rw [ho2]
        exact expanded_append hx (.inr ⟨henc, labels, hlab, rfl⟩)

end FT
