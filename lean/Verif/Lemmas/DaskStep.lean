import Verif.Spec.Dask
import Verif.Lemmas.NodeCalc

/-! # The handlers on Dask frames and on pandas frames give the same rows, up to order -/
namespace FT
open Spec

/-- The same columns, and the same rows in some order. -/
def TEq (a b : Table) : Prop := a.cols = b.cols ∧ a.rows.Perm b.rows

theorem TEq.refl (t : Table) : TEq t t := ⟨rfl, List.Perm.refl _⟩

/-- The same for stored frames. -/
def FEq : Option Table → Option Table → Prop
  | none, none => True
  | some a, some b => TEq a b
  | _, _ => False

/-- The same at every path. -/
def DEq (d d' : DTrie) : Prop := ∀ q, FEq (frameAt d q) (frameAt d' q)

theorem lastPerBase_mem (l : List (String × String)) : ∀ x ∈ lastPerBase l, x ∈ l := by
  induction l with
  | nil => simp [lastPerBase]
  | cons a l ih =>
    intro x hx
    simp only [lastPerBase] at hx
    split at hx
    · exact List.mem_cons_of_mem _ (ih x hx)
    · rcases List.mem_cons.mp hx with rfl | hx
      · exact List.mem_cons_self
      · exact List.mem_cons_of_mem _ (ih x hx)

theorem filter_unique {α : Type} (P : α → Bool) : ∀ (l : List α), (∀ i j : Nat, ∀ a b, l[i]? = some a → l[j]? = some b → P a = true → P b = true → i = j) →
    l.filter P = (l.find? P).toList
  | [], _ => rfl
  | a :: l, h => by
    have hl : ∀ i j : Nat, ∀ x y, l[i]? = some x → l[j]? = some y → P x = true → P y = true → i = j := by
      intro i j x y hx hy px py
      have := h (i + 1) (j + 1) x y (by simpa using hx) (by simpa using hy) px py
      omega
    cases hp : P a with
    | false => simp only [List.filter_cons, hp, Bool.false_eq_true, if_false, List.find?_cons, filter_unique P l hl]
    | true =>
      simp only [List.filter_cons, hp, if_true, List.find?_cons, Option.toList_some]
      congr 1
      rw [List.filter_eq_nil_iff]
      intro x hx hpx
      obtain ⟨i, hi⟩ := List.getElem?_of_mem hx
      have := h 0 (i + 1) a x rfl (by simpa using hi) hp hpx
      omega

theorem filter_key {rows : List Row} {c : String} (hn : (rows.map fun r => r c).Nodup) (v : Val) :
    (rows.filter fun p => decide (p c = v)) = (rows.find? fun p => decide (p c = v)).toList := by
  apply filter_unique
  intro i j a b ha hb pa pb
  simp only [decide_eq_true_eq] at pa pb
  obtain ⟨hi, rfl⟩ := List.getElem?_eq_some_iff.mp ha
  obtain ⟨hj, rfl⟩ := List.getElem?_eq_some_iff.mp hb
  have := (List.getElem_inj (i := i) (j := j) (h₀ := by simpa using hi) (h₁ := by simpa using hj) hn).mp (by simp [pa, pb])
  exact this

/-- With distinct keys on the right a left merge keeps the rows on the left. -/
theorem leftJoin_eq {leftV rightV : String} {cells : Option Row → List (String × Val)} {left right : List Row}
    (hn : (right.map fun r => r rightV).Nodup) :
    leftJoin leftV rightV cells left right = left.map fun r => r.put (cells (right.find? fun p => decide (p rightV = r leftV))) := by
  unfold leftJoin
  rw [List.map_eq_flatMap]
  apply flatMap_congr'
  intro r _
  rw [filter_key hn]
  cases right.find? fun p => decide (p rightV = r leftV) <;> rfl

theorem find_key_perm {rows rows' : List Row} {c : String} (hp : rows.Perm rows') (hn : (rows.map fun r => r c).Nodup) (v : Val) :
    (rows'.find? fun p => decide (p c = v)) = rows.find? fun p => decide (p c = v) := by
  have h1 := filter_key hn v
  have h2 := filter_key ((hp.map _).nodup_iff.mp hn) v
  have := hp.filter fun p => decide (p c = v)
  rw [h1, h2] at this
  revert this
  cases rows.find? fun p => decide (p c = v) <;> cases rows'.find? fun p => decide (p c = v) <;> intro h
  · rfl
  · simpa using h.length_eq
  · simpa using h.length_eq
  · have := List.perm_singleton.mp h.symm
    simp only [Option.toList_some, List.cons.injEq, and_true] at this
    rw [this]

theorem leftJoin_perm {leftV rightV : String} {cells : Option Row → List (String × Val)} {left left' right right' : List Row}
    (hl : left.Perm left') (hr : right.Perm right') (hn : (right.map fun r => r rightV).Nodup) :
    (left.map fun r => r.put (cells (right.find? fun p => decide (p rightV = r leftV)))).Perm (leftJoin leftV rightV cells left' right') := by
  rw [leftJoin_eq ((hr.map _).nodup_iff.mp hn)]
  simp only [find_key_perm hr hn]
  exact hl.map _

/-- Direct features. -/
theorem daskDirect_ok {A : Arrange} (F : FairArrange A) (p : List Edge) (k : Nat) {fs : List Feat} {t t' out : Table} {dfs dfs' : DTrie}
    (ht : TEq t t') (hd : DEq dfs dfs') (h : calcDirect fs t dfs = .ok out)
    (hkey : ∀ fwd rel, fs.head?.map Feat.path = some [(fwd, rel)] → ∀ parent, frameAt dfs [(fwd, rel)] = some parent →
      (parent.rows.map fun r => r rel.parentV).Nodup ∧ ∀ f ∈ fs, ∀ b ∈ f.bases, rel.parentV ∉ b.names) :
    ∃ out', daskDirect A p k fs t' dfs' = .ok out' ∧ TEq out out' := by
  unfold calcDirect at h
  unfold daskDirect
  split at h
  · rename_i fwd rel hpath
    rw [hpath]
    dsimp only
    have hde := hd [(fwd, rel)]
    unfold frameAt at hde
    cases hv : (Trie.nodeAt none [(fwd, rel)] dfs).value with
    | none => rw [hv] at h; cases h
    | some parent =>
      rw [hv] at h hde
      cases hv' : (Trie.nodeAt none [(fwd, rel)] dfs').value with
      | none => rw [hv'] at hde; exact hde.elim
      | some parent' =>
        rw [hv'] at hde
        obtain ⟨hn, hb⟩ := hkey fwd rel hpath parent hv
        have hpairs : directPairs t' = directPairs t := by funext f; unfold directPairs; rw [ht.1]
        simp only [hpairs]
        simp only at h
        split at h
        · rename_i hc
          have hc' : (hasCols parent' (rel.parentV :: (lastPerBase (fs.flatMap (directPairs t))).map Prod.snd) &&
              t'.cols.contains rel.childV) = true := by
            rw [← ht.1]; unfold hasCols at hc ⊢; rw [← hde.1]; exact hc
          have hno : ((lastPerBase (fs.flatMap (directPairs t))).any fun nb => nb.2 == rel.parentV) = false := by
            rw [List.any_eq_false]
            intro nb hnb
            obtain ⟨f, hf, hm⟩ := List.mem_flatMap.mp (lastPerBase_mem _ nb hnb)
            unfold directPairs at hm
            split at hm
            · rename_i b bs hbs
              have := (List.of_mem_zip (List.mem_filter.mp hm).1).2
              simp only [beq_iff_eq]
              intro he
              exact hb f hf b (by rw [hbs]; simp) (he ▸ this)
            · cases hm
          rw [if_pos hc', hno]
          cases h
          refine ⟨_, rfl, ?_, ?_⟩
          · simp only [ht.1]
          · have := leftJoin_perm (leftV := rel.childV) (rightV := rel.parentV)
              (cells := fun x => (lastPerBase (fs.flatMap (directPairs t))).map fun nb => (nb.1, cellOf x nb.2)) ht.2 hde.2 hn
            have hm : (t.rows.map fun r => fillRow fs (r.put (mergedCells rel parent (lastPerBase (fs.flatMap (directPairs t))) r))) =
                (t.rows.map fun r => r.put ((lastPerBase (fs.flatMap (directPairs t))).map fun nb =>
                  (nb.1, cellOf (parent.rows.find? fun p => decide (p rel.parentV = r rel.childV)) nb.2))).map (fillRow fs) := by
              rw [List.map_map]
              apply List.map_congr_left
              intro r _
              simp only [Function.comp_apply, mergedCells]
              cases parent.rows.find? fun p => decide (p rel.parentV = r rel.childV) <;> rfl
            simp only []
            rw [hm]
            exact (this.trans (F.order p k _).symm).map _
        · cases h
  · cases h

/-- The new cells of one row for a row-by-row transform. -/
def rowCells (time : Int) (f : Feat) (g : Int → List Val → List Val) (r : Row) : List (String × Val) :=
  f.names.zip ((List.range f.names.length).map fun k => (g time (f.bases.map fun b => r b.name)).getD k .null)

/-- A transform feature computed row by row. -/
structure RowTrans (f : Feat) (g : Int → List Val → List Val) (p : TransPrim) : Prop where
  prim : transPrim? f = some p
  bases : f.bases ≠ []
  rows : ∀ t args n, args ≠ [] → (∀ a ∈ args, a.length = n) →
    p.fn t args = (List.range f.names.length).map fun k => (List.range n).map fun i => (g t (args.map fun a => a.getD i .null)).getD k .null

theorem transCells_rows {env : Env} {t : Table} {f : Feat} {g : Int → List Val → List Val} {p : TransPrim} (h : RowTrans f g p)
    (hc : hasCols t (f.bases.map Feat.name) = true) :
    transCells env t f = .ok (f.names.zip ((List.range f.names.length).map fun k => (List.range t.rows.length).map fun i =>
      (g env.timeLast (f.bases.map fun b => (t.rows.map fun r => r b.name).getD i .null)).getD k .null)) := by
  have hfn := h.rows env.timeLast (f.bases.map fun b => t.rows.map fun r => r b.name) t.rows.length (by simpa using h.bases) (by
    intro a ha
    obtain ⟨b, _, rfl⟩ := List.mem_map.mp ha
    simp)
  simp only [transCells, h.prim, hc, if_true]
  rw [hfn]
  simp only [List.length_map, List.length_range, if_true, List.map_map, Function.comp_def]
  rw [if_pos]
  simp

theorem assignCols_rows {env : Env} {t : Table} (fs : List Feat) (g : Feat → Int → List Val → List Val) :
    assignCols t (fs.flatMap fun f => f.names.zip ((List.range f.names.length).map fun k => (List.range t.rows.length).map fun i =>
      (g f env.timeLast (f.bases.map fun b => (t.rows.map fun r => r b.name).getD i .null)).getD k .null)) =
    { cols := addCols t.cols (fs.flatMap Feat.names), rows := t.rows.map fun r => r.put (fs.flatMap fun f => rowCells env.timeLast f (g f) r) } := by
  unfold assignCols
  congr 1
  · congr 1
    rw [List.map_flatMap]
    apply flatMap_congr'
    intro f _
    rw [List.map_fst_zip]
    simp
  · apply List.ext_getElem?
    intro i
    rw [List.getElem?_mapIdx, List.getElem?_map]
    cases hi : t.rows[i]? with
    | none => rfl
    | some r =>
      simp only [Option.map_some, Option.some.injEq]
      congr 1
      rw [List.map_flatMap]
      apply flatMap_congr'
      intro f _
      unfold rowCells
      have hlt := (List.getElem?_eq_some_iff.mp hi).1
      apply List.ext_getElem?
      intro k
      simp only [List.getElem?_map, List.zip_map_right]
      by_cases hk : k < f.names.length
      · have h1 : (f.names.zip (List.range f.names.length))[k]? = some (f.names[k], k) := by
          rw [List.getElem?_zip_eq_some]
          exact ⟨List.getElem?_eq_getElem hk, by simp [hk]⟩
        simp only [h1, Option.map_some, Prod.map, id, Option.some.injEq, Prod.mk.injEq, true_and]
        have hr := (List.getElem?_eq_some_iff.mp hi).2
        simp [List.getD, hlt, hr]
      · have h1 : (f.names.zip (List.range f.names.length))[k]? = none := by
          rw [List.getElem?_eq_none]; simp; omega
        simp [h1]

/-- Transform features. -/
theorem daskTrans_ok {env : Env} {fs : List Feat} {t t' out : Table} (g : Feat → Int → List Val → List Val) (pr : Feat → TransPrim)
    (ht : TEq t t') (h : calcTrans env fs t = .ok out) (hrow : ∀ f ∈ fs, RowTrans f (g f) (pr f))
    (hc : ∀ f ∈ fs, hasCols t (f.bases.map Feat.name) = true) :
    ∃ out', daskTrans env fs t' = .ok out' ∧ TEq out out' := by
  have hc' : ∀ f ∈ fs, hasCols t' (f.bases.map Feat.name) = true := by
    intro f hf; have := hc f hf; unfold hasCols at this ⊢; rw [← ht.1]; exact this
  have h1 := concatCells_ok (transCells env t) _ fs fun f hf => transCells_rows (env := env) (hrow f hf) (hc f hf)
  have h2 := concatCells_ok (transCells env t') _ fs fun f hf => transCells_rows (env := env) (hrow f hf) (hc' f hf)
  have e2 : daskTrans env fs t' = .ok { cols := addCols t'.cols (fs.flatMap Feat.names), rows := t'.rows.map fun r => r.put (fs.flatMap fun f => rowCells env.timeLast f (g f) r) } := by
    unfold daskTrans; rw [h2]; dsimp only
    rw [assignCols_rows]
  refine ⟨_, e2, ?_⟩
  have hout : out = { cols := addCols t.cols (fs.flatMap Feat.names), rows := t.rows.map fun r => r.put (fs.flatMap fun f => rowCells env.timeLast f (g f) r) } := by
    unfold calcTrans at h
    split at h
    · rename_i hemp
      cases h
      have : t.rows = [] := by simpa using hemp
      rw [this]; rfl
    · rw [h1] at h
      dsimp only at h
      rw [assignCols_rows] at h
      cases h; rfl
  rw [hout]
  exact ⟨by rw [ht.1], ht.2.map _⟩

/-- The cells of an aggregation agree, whatever the order of the rows below. -/
theorem daskAggCells_eq {A : Arrange} (F : FairArrange A) (p : List Edge) {env : Env} {gv : String} {prev : Option (Dict Int)} {base base' : List Row}
    (hb : base.Perm base') {f : Feat} {path : List Relationship} {prim : AggPrim} {prev' : Option (Dict Int)} {u : Bool} (hk : f.kind = .agg path prim prev' u)
    (hd : DaskFeature A f) (hprev : prev.bind obsCount = none) (id : Val) :
    daskAggCells A p gv base' f id = aggCells env gv prev base f id := by
  have hd' := hd
  simp only [DaskFeature, hk] at hd'
  obtain ⟨hct, ⟨b, hbs, hwn⟩, hnl, _, g, hv, hs⟩ := hd'
  obtain ⟨n, hn⟩ := List.length_eq_one_iff.mp hnl
  have hca : canAgg f prim = true := by
    unfold canAgg
    cases hw : f.wh with
    | nil => simp [hct, hbs, hn]
    | cons w ws =>
      have := hwn w (by rw [hw]; simp)
      simp [hct, hbs, hn, List.filter_cons, Ne.symm this]
  have hgrp : aggGroup gv prev base id = base.filter fun r => decide (r gv = id) := by
    unfold aggGroup prevObs; rw [hprev]
  have hperm := hb.filter fun r => decide (r gv = id)
  simp only [daskAggCells, daskVersion?, hk, hv, aggCells, hgrp, hn, hbs, List.map_cons, List.map_nil, List.headD_cons, aggArgs, hca, if_true, List.take_succ_cons, List.take_zero,
    List.mapIdx_cons, List.mapIdx_nil]
  by_cases he : (base.filter fun r => decide (r gv = id)) = []
  · have he' : (base'.filter fun r => decide (r gv = id)) = [] := by
      rw [he] at hperm; exact hperm.symm.eq_nil
    simp [he, he']
  · have he' : (base'.filter fun r => decide (r gv = id)) ≠ [] := by
      intro h; rw [h] at hperm; exact he hperm.eq_nil
    have hcol := hs env.timeLast (A.split p f.name id ((base'.filter fun r => decide (r gv = id)).map fun r => r b.name))
      ((base.filter fun r => decide (r gv = id)).map fun r => r b.name) ((F.split _ _ _ _).trans (hperm.map _).symm) (by simpa using he)
    simp [he, he', hcol]

theorem daskCanAgg_of {A : Arrange} {f : Feat} {path : List Relationship} {prim : AggPrim} {prev : Option (Dict Int)} {u : Bool}
    (hk : f.kind = .agg path prim prev u) (hd : DaskFeature A f) : canAgg f prim = true ∧ (A.version prim).isSome := by
  simp only [DaskFeature, hk] at hd
  obtain ⟨hct, ⟨b, hbs, hwn⟩, hnl, _, g, hv, _⟩ := hd
  refine ⟨?_, by rw [hv]; rfl⟩
  unfold canAgg
  cases hw : f.wh with
  | nil => simp [hct, hbs, hnl]
  | cons w ws =>
    have := hwn w (by rw [hw]; simp)
    simp [hct, hbs, hnl, Ne.symm this]

theorem daskAgg_ok {A : Arrange} (F : FairArrange A) (p : List Edge) (k : Nat) {env : Env} {idx : String} {test : Feat} {rest : List Feat}
    {frame frame' out : Table} {dfs dfs' : DTrie} (ht : TEq frame frame') (hd : DEq dfs dfs')
    (h : calcAgg env idx (test :: rest) frame dfs = .ok out)
    (hfeat : ∀ f ∈ test :: rest, DaskFeature A f ∧ ∃ path prim prev u, f.kind = .agg path prim prev u)
    (hcols : ∀ base, frameAt dfs test.path = some base → relationshipVariableId (aggPath test) ∈ base.cols ∧
      (∀ w ∈ test.wh, w.name ∈ base.cols) ∧ ∀ f ∈ test :: rest, ∀ b ∈ f.bases, b.name ∈ base.cols)
    (hrel : ∃ fwd rel, test.path.head? = some (fwd, rel) ∧ rel.parentV = idx) (hidx : idx ∈ frame.cols) :
    ∃ out', daskAgg A p k env (test :: rest) frame' dfs' = .ok out' ∧ TEq out out' := by
  obtain ⟨fwd, rel, hhead, hpv⟩ := hrel
  have hprev : (aggPrev test).bind obsCount = none := by
    obtain ⟨hdf, path, prim, prev, u, hk⟩ := hfeat test (by simp)
    simp only [DaskFeature, hk] at hdf
    simp only [aggPrev, hk]
    cases prev with
    | none => rfl
    | some t => exact hdf.2.2.2.1 t rfl
  unfold calcAgg at h
  unfold daskAgg
  simp only [← ht.1] at *
  generalize hfl : (test :: rest).filter (fun f => f.names.any fun n => !frame.cols.contains n) = fl at h ⊢
  have hsub : ∀ f ∈ fl, f ∈ test :: rest := fun f hf => (List.mem_filter.mp (hfl ▸ hf)).1
  split at h
  · cases h
    rename_i he
    rw [if_pos he]
    exact ⟨_, rfl, ht⟩
  · rename_i he
    rw [if_neg he]
    have hde := hd test.path
    unfold frameAt at hde
    cases hv : (Trie.nodeAt none test.path dfs).value with
    | none => rw [hv] at h; cases h
    | some base =>
      rw [hv] at h hde
      cases hv' : (Trie.nodeAt none test.path dfs').value with
      | none => rw [hv'] at hde; exact hde.elim
      | some base' =>
        rw [hv'] at hde
        obtain ⟨hgv, hwh, hbs⟩ := hcols base hv
        rw [hhead]
        dsimp only at h ⊢
        -- the `where` filter
        have hw : ∃ b b', whereFilter test base = .ok b ∧ daskWhere test base' = .ok b' ∧ TEq b b' ∧ b.cols = base.cols := by
          unfold whereFilter daskWhere
          cases hww : test.wh with
          | nil => exact ⟨_, _, rfl, rfl, hde, rfl⟩
          | cons w ws =>
            have hmem := hwh w (by rw [hww]; simp)
            simp only [← hde.1, List.contains_iff_mem.mpr hmem, if_true]
            by_cases hem : base.rows.isEmpty
            · rw [if_pos hem]
              refine ⟨_, _, rfl, rfl, ⟨rfl, ?_⟩, rfl⟩
              have hnil : base.rows = [] := by simpa using hem
              have hnil' : base'.rows = [] := by have := hde.2; rw [hnil] at this; exact this.symm.eq_nil
              rw [hnil, hnil']; simp
            · rw [if_neg hem]
              exact ⟨_, _, rfl, rfl, ⟨rfl, hde.2.filter _⟩, rfl⟩
        obtain ⟨b, b', hb, hb', hbb, hbc⟩ := hw
        rw [hb] at h
        rw [hb']
        dsimp only at h ⊢
        rw [hprev]
        have hcan : (fl.all daskCanAgg) = true := by
          rw [List.all_eq_true]
          intro f hf
          obtain ⟨hdf, path, prim, prev, u, hk⟩ := hfeat f (hsub f hf)
          simp only [daskCanAgg, hk]
          exact (daskCanAgg_of hk hdf).1
        have hver : (fl.all fun f => (daskVersion? A f).isSome) = true := by
          rw [List.all_eq_true]
          intro f hf
          obtain ⟨hdf, path, prim, prev, u, hk⟩ := hfeat f (hsub f hf)
          simp only [daskVersion?, hk]
          exact (daskCanAgg_of hk hdf).2
        have hok : (b'.cols.contains (relationshipVariableId (aggPath test)) && fl.all (aggColsOk b') && frame.cols.contains rel.parentV) = true := by
          rw [hpv, ← hbb.1, hbc]
          simp only [Bool.and_eq_true, List.contains_iff_mem, List.all_eq_true]
          refine ⟨⟨hgv, ?_⟩, hidx⟩
          intro f hf
          obtain ⟨hdf, path, prim, prev, u, hk⟩ := hfeat f (hsub f hf)
          simp only [aggColsOk, hk, hasCols, List.all_eq_true, List.contains_iff_mem]
          intro c hc
          unfold aggArgs at hc
          rw [if_pos (daskCanAgg_of hk hdf).1] at hc
          obtain ⟨x, hx, rfl⟩ := List.mem_map.mp hc
          rw [← hbb.1, hbc]
          exact hbs f (hsub f hf) x (List.mem_of_mem_take hx)
        simp only [Option.isSome_none, Bool.false_eq_true, if_false, hcan, hver, Bool.not_true]
        rw [if_pos hok]
        refine ⟨_, rfl, ?_⟩
        have hpt : ∀ ti, (prevTime env ti (aggPrev test) b.rows).Perm (prevTime env ti (aggPrev test) b'.rows) := by
          intro ti
          unfold prevTime
          split
          · split
            · exact hbb.2.filter _
            · exact hbb.2
          · exact hbb.2
        -- the cells of one row
        have hcells : ∀ ti id, (fl.flatMap fun f => daskAggCells A p (relationshipVariableId (aggPath test)) (prevTime env ti (aggPrev test) b'.rows) f id) =
            fl.flatMap fun f => aggCells env (relationshipVariableId (aggPath test)) (aggPrev test) (prevTime env ti (aggPrev test) b.rows) f id := by
          intro ti id
          apply flatMap_congr'
          intro f hf
          obtain ⟨hdf, path, prim, prev, u, hk⟩ := hfeat f (hsub f hf)
          exact daskAggCells_eq F p (hpt ti) hk hdf hprev id
        simp only [hcells, hpv]
        split at h
        · rename_i hbe
          cases h
          have hnil : b.rows = [] := by simpa using hbe
          refine ⟨rfl, ?_⟩
          have hcell0 : ∀ ti id, (fl.flatMap fun f => aggCells env (relationshipVariableId (aggPath test)) (aggPrev test) (prevTime env ti (aggPrev test) b.rows) f id) =
              fl.flatMap fun f => f.names.map fun n => (n, Val.null) := by
            intro ti id
            apply flatMap_congr'
            intro f hf
            obtain ⟨hdf, path, prim, prev, u, hk⟩ := hfeat f (hsub f hf)
            have hpn : prevTime env ti (aggPrev test) b.rows = [] := by
              rw [hnil]; unfold prevTime; split <;> try rfl
              split <;> rfl
            simp only [aggCells, hk, aggGroup, prevObs, hprev, hpn, List.filter_nil, List.isEmpty_nil, if_true]
          simp only [hcell0]
          refine List.Perm.trans ?_ ((F.order p k _).map _).symm
          rw [List.map_map]
          exact ht.2.map _
        · unfold aggRows at h
          dsimp only at h
          split at h
          · split at h
            · cases h
              refine ⟨rfl, ?_⟩
              refine List.Perm.trans ?_ ((F.order p k _).map _).symm
              rw [List.map_map]
              exact ht.2.map _
            · cases h
          · cases h

end FT
