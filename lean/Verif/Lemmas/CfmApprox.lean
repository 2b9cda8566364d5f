import Verif.Lemmas.Cfm
import Verif.Lemmas.Trie
import Verif.Spec.CfmApprox
/-! # Lemmas for feature matrices with approximation -/
namespace FT
open Spec

/-! ### The ids at the end of a path -/

/-- A path of relationships from child to parent, starting at an entity. -/
def ClimbsFrom (env : Env) : String → List Edge → Prop
  | _, [] => True
  | e, (d, r) :: p => d = true ∧ r.childE = e ∧ RelOk env r ∧ r.childV ≠ indexOf env r.childE ∧ ClimbsFrom env r.parentE p

theorem reachedUp_nil {w : World} {ids : List Val} {x : Val} (h : ReachedUp w ids [] x) : x ∈ ids := by
  generalize hq : ([] : List Edge) = q at h
  cases h with
  | start hx => exact hx
  | up _ => exact absurd (congrArg List.length hq) (by simp)

theorem reachedUp_cons {w : World} {ids : List Val} {k : Edge} {p : List Edge} {x : Val} (h : ReachedUp w ids (k :: p) x) :
    ReachedUp w (ids.map fun y => w.cell k.2.childE y k.2.childV) p x := by
  generalize hq : k :: p = q at h
  induction h generalizing p with
  | start _ => cases hq
  | @up p' x r h ih =>
    cases p' with
    | nil =>
      cases hq
      exact .start (List.mem_map.mpr ⟨x, reachedUp_nil h, rfl⟩)
    | cons k' p' =>
      cases hq
      exact .up (ih rfl)

theorem cell_raw {env : Env} {e : String} (hok : EntityOk env e) (hw : env.window.all Window.hasNoObservations = true)
    {ent : Ent} (he : env.ent e = some ent) {y : Val} {c : String} (hv : (worldOf env).cell e y c ≠ .null) :
    ∃ r ∈ ent.df.rows, r ent.index = y ∧ r c = (worldOf env).cell e y c := by
  by_cases hy : y ∈ (worldOf env).ids e
  · obtain ⟨r, hr, rfl⟩ := List.mem_map.mp hy
    rw [cell_row hok hw hr] at hv ⊢
    have hi : indexOf env e = ent.index := by simp [indexOf, he]
    rw [visRows_eq env e ent he hw] at hr
    obtain ⟨r0, hr0, rfl⟩ := List.mem_map.mp hr
    refine ⟨r0, (List.mem_filter.mp hr0).1, ?_, ?_⟩
    · rw [hi]
      exact ((maskAll_cell _ _ _ _).2 (hok.notSecondary ent he)).symm
    · rcases (maskAll_cell (some env.timeLast) ent.secondary c r0).1 with h | h
      · exact h.symm
      · exact absurd h hv
  · exact absurd (cell_absent hy c) hv

theorem approxIds_ok {env rest : Env} (hent : rest.ent = env.ent) (hw : rest.window.all Window.hasNoObservations = true) :
    ∀ (p : List Edge) (e : String) (ids ids' : List Val), ClimbsFrom rest e p → (∀ x ∈ ids, x ≠ .null → x ∈ ids') →
      ∃ out, approxIds env (indexOf env e) p ids' = .ok out ∧ ∀ x, ReachedUp (worldOf rest) ids p x → x ≠ .null → x ∈ out
  | [], e, ids, ids', _, h => ⟨ids', rfl, fun x hx hn => h x (reachedUp_nil hx) hn⟩
  | (d, r) :: p, e, ids, ids', hc, h => by
    obtain ⟨rfl, rfl, hr, hne, hc⟩ := hc
    obtain ⟨ent, he, hi⟩ := hr.child.get
    have hidx : ∀ e, indexOf rest e = indexOf env e := by intro e; simp [indexOf, hent]
    have he' : env.ent r.childE = some ent := by rw [← hent]; exact he
    rw [hidx] at hne hi
    have hcols : hasCols ent.df [ent.index, r.childV] = true := by
      simp only [hasCols, List.all_cons, List.all_nil, Bool.and_true, Bool.and_eq_true, List.contains_iff_mem]
      refine ⟨hr.child.keys ent he _ ?_, hr.child.keys ent he _ hr.childKey⟩
      have := hr.child.indexKey
      rwa [hidx, hi] at this
    rw [hi] at hne
    obtain ⟨out, ho, hout⟩ := approxIds_ok hent hw p r.parentE (ids.map fun y => (worldOf rest).cell r.childE y r.childV)
      (ids'.flatMap fun i => (ent.df.rows.filter fun x => x ent.index = i).map fun x => x r.childV) hc (by
        intro x hx hn
        obtain ⟨y, hy, rfl⟩ := List.mem_map.mp hx
        obtain ⟨row, hrow, h1, h2⟩ := cell_raw hr.child hw he hn
        have hyv : y ∈ (worldOf rest).ids r.childE := Classical.byContradiction fun hnv => hn (cell_absent hnv _)
        refine List.mem_flatMap.mpr ⟨y, h y hy (fun hnull => ?_), List.mem_map.mpr ⟨row, List.mem_filter.mpr ⟨hrow, by simpa using h1⟩, h2⟩⟩
        subst hnull
        exact (visible_ids hr.child hw).2 hyv)
    refine ⟨out, ?_, fun x hx hn => hout x (reachedUp_cons hx) hn⟩
    rw [approxIds, joinUp]
    simp only [Env.getEnt, he']
    rw [hi, if_neg (Ne.symm hne), if_pos hcols]
    simp only
    rw [hr.parentIndex, hidx]
    exact ho

/-! ### Which features are given -/

section
variable {env rest : Env} {features : List Feat} {e : String} {b : Int}

theorem needs_chain {f g : Feat} {p : RelPath} (h : DirectChain f p g) : Needs f g := by
  have key : ∀ {f g : Feat} {p : RelPath}, DirectChain f p g → Uses [] f g := by
    intro f g p h
    induction h with
    | last _ hb _ => exact .direct (.inl (by rw [hb]; simp)) (by simp)
    | more _ hb _ ih => exact .deep (.inl (by rw [hb]; simp)) (by simp) ih
  exact .inr (key h)

theorem Spec.Approximated.neededBy {p : List Edge} {g : Feat} (h : Approximated features p g) : NeededBy features g := by
  obtain ⟨f, hf, _, hc, _⟩ := h
  exact ⟨f, hf, needs_chain hc⟩

theorem direct_wf {env : Env} {f : Feat} {r : Relationship} (h : WellFormed env f) (hk : f.kind = .direct r) :
    RelOk env r ∧ r.childE = f.entity ∧ ∃ b, f.bases = [b] ∧ b.entity = r.parentE := by
  obtain ⟨_, _, _, h⟩ := h
  simp only [hk] at h
  obtain ⟨h1, h2, _, b, hb, he, _⟩ := h
  exact ⟨h1, h2, b, hb, he⟩

variable (R : RegularFor rest features (lookedUp env features b) e)
include R

theorem lookedUp_names (p : List Edge) (n : String) :
    n ∈ (lookedUp env features b).names p ↔ ∃ g, Approximated features p g ∧ n = g.uniqueName := by
  have := hidden_gather features R.names (by
    intro g hg r hk
    obtain ⟨_, _, b, hb, _⟩ := direct_wf (R.wf g hg) hk
    rw [hb]; simp) p n
  rw [show (lookedUp env features b).names p = hiddenBy (gatherApproximate features) p from rfl, this]
  constructor
  · rintro ⟨f, hf, hn, g, hc, ha, hg⟩
    exact ⟨g, ⟨f, hf, hn, hc, ha⟩, hg⟩
  · rintro ⟨g, ⟨f, hf, hn, hc, ha⟩, hg⟩
    exact ⟨f, hf, hn, g, hc, ha, hg⟩

theorem hidden_agg {p : List Edge} {d : Feat} (hd : NeededBy features d) (h : d.uniqueName ∈ (lookedUp env features b).names p) :
    Approximated features p d := by
  obtain ⟨g, hg, hn⟩ := (lookedUp_names R p _).mp h
  rwa [R.names d g hd hg.neededBy hn]

theorem givenAt_iff (p : List Edge) (g : Feat) :
    GivenAt features (lookedUp env features b).names p g ↔ Approximated features p g := by
  constructor
  · intro h
    exact hidden_agg R h.neededBy h.hidden
  · intro h
    have hmem : g.uniqueName ∈ (lookedUp env features b).names p := (lookedUp_names R p _).mpr ⟨g, h, rfl⟩
    obtain ⟨f, hf, _, hc, ha⟩ := h
    have key : ∀ {f g : Feat} {p : RelPath}, DirectChain f p g → IsAgg g → ∀ p0 full,
        Planned features (lookedUp env features b).names p0 f full → g.uniqueName ∈ (lookedUp env features b).names (p0 ++ p) →
        GivenAt features (lookedUp env features b).names (p0 ++ p) g := by
      intro f g p hc ha
      induction hc with
      | last hk hb hnd =>
        intro p0 full hp hm
        rename_i f r g bs
        have := @GivenAt.dep features (lookedUp env features b).names p0 f full g g hp (.inl (by rw [hb]; simp)) (by
          obtain ⟨_, _, _, _, ha⟩ := ha
          simp [unslice, ha])
        rw [path_direct hk] at this
        exact this hm
      | more hk hb hc ih =>
        intro p0 full hp hm
        rename_i f r d bs p g
        have hdk : ∃ r', d.kind = .direct r' := by cases hc <;> exact ⟨_, by assumption⟩
        obtain ⟨r', hdk⟩ := hdk
        have hdn : NeededBy features d := neededBy_dep hp.neededBy (.inl (by rw [hb]; simp))
        have hpl := @Planned.dep features (lookedUp env features b).names p0 f full d d hp (.inl (by rw [hb]; simp)) (by simp [unslice, hdk]) (by
          intro hh
          obtain ⟨_, _, _, _, _, _, _, _, hak⟩ := hidden_agg R hdn hh
          rw [hdk] at hak; cases hak)
        rw [path_direct hk] at hpl
        have := ih ha (p0 ++ [(true, r)]) _ hpl (by simpa using hm)
        simpa using this
    have hnot : f.uniqueName ∉ (lookedUp env features b).names [] := by
      rw [R.targetsComputed]; simp
    exact key hc ha [] _ (.target hf hnot) (by simpa using hmem)

theorem climbs (hent : rest.ent = env.ent) (hl : ∀ p g, Approximated features p g → ∀ x ∈ p, x.2.childV ≠ indexOf env x.2.childE)
    {p : List Edge} {g : Feat} (h : Approximated features p g) : ClimbsFrom rest e p := by
  have hl := hl p g h
  obtain ⟨f, hf, _, hc, _⟩ := h
  have hidx : ∀ e, indexOf rest e = indexOf env e := by intro e; simp [indexOf, hent]
  have key : ∀ {f g : Feat} {p : RelPath}, DirectChain f p g → NeededBy features f → (∀ x ∈ p, x.2.childV ≠ indexOf env x.2.childE) →
      ClimbsFrom rest f.entity p := by
    intro f g p hc
    induction hc with
    | last hk hb _ =>
      intro hn hl
      obtain ⟨h1, h2, _⟩ := direct_wf (R.wf _ hn) hk
      refine ⟨rfl, h2, h1, ?_, trivial⟩
      rw [hidx]; exact hl (true, _) List.mem_cons_self
    | more hk hb hc ih =>
      intro hn hl
      obtain ⟨h1, h2, b', hb', he⟩ := direct_wf (R.wf _ hn) hk
      rw [hb] at hb'; cases hb'
      refine ⟨rfl, h2, h1, ?_, ?_⟩
      · rw [hidx]; exact hl (true, _) List.mem_cons_self
      · rw [← he]
        exact ih (neededBy_dep hn (.inl (by rw [hb]; simp))) fun x hx => hl x (by simp [hx])
  have := key hc ⟨f, hf, .inl rfl⟩ hl
  rwa [R.targetEntity f hf] at this

theorem approximated_entity {p : List Edge} {g : Feat} (h : Approximated features p g) : g.entity = pathEnd e p :=
  atNode_entity R (.inr ((givenAt_iff R p g).mpr h))

end

/-! ### The table of approximated features -/

theorem lookup_zip_append {ns ms : List String} {vs us : List Val} (hl : ns.length = vs.length) (c : String) :
    ((ns ++ ms).zip (vs ++ us)).lookup c = ((ns.zip vs).lookup c).or ((ms.zip us).lookup c) := by
  rw [List.zip_append hl, List.lookup_append]

theorem lookup_zip_absent {ns : List String} {vs : List Val} {c : String} (h : c ∉ ns) : (ns.zip vs).lookup c = none := by
  rw [List.lookup_eq_none_iff]
  rintro ⟨k, v⟩ hk
  have := (List.of_mem_zip hk).1
  simp only [bne_iff_ne, ne_eq]
  rintro rfl
  exact h this

theorem map_lookup_zip : ∀ {ns : List String} {vs : List Val}, ns.Nodup → ns.length = vs.length →
    ns.map (fun c => ((ns.zip vs).lookup c).getD .null) = vs
  | [], [], _, _ => rfl
  | n :: ns, v :: vs, hn, hl => by
    rw [List.nodup_cons] at hn
    simp only [List.map_cons, List.zip_cons_cons, List.lookup_cons, beq_self_eq_true, Option.getD_some, List.cons.injEq, true_and]
    conv => rhs; rw [← map_lookup_zip (ns := ns) (vs := vs) hn.2 (by simpa using hl)]
    apply List.map_congr_left
    intro c hc
    have : (c == n) = false := by simp only [beq_eq_false_iff_ne]; rintro rfl; exact hn.1 hc
    rw [this]

/-- The cells of one feature in a row with the cells of several features. -/
theorem row_feature (V : Feat → List Val) : ∀ (gs : List Feat), (∀ g ∈ gs, g.names.Nodup ∧ (V g).length = g.names.length) →
    (∀ g ∈ gs, ∀ h ∈ gs, g ≠ h → ∀ n ∈ g.names, n ∉ h.names) → ∀ g ∈ gs,
    g.names.map (Row.ofList ((gs.flatMap Feat.names).zip (gs.flatMap V))) = V g
  | [], _, _, g, hg => by cases hg
  | h :: gs, hl, hd, g, hg => by
    by_cases he : g = h
    · subst he
      conv => rhs; rw [← map_lookup_zip (hl g (by simp)).1 (hl g (by simp)).2.symm]
      apply List.map_congr_left
      intro c hc
      simp only [Row.ofList, List.flatMap_cons]
      rw [lookup_zip_append (hl g (by simp)).2.symm]
      cases hx : (g.names.zip (V g)).lookup c with
      | some v => rfl
      | none =>
        exfalso
        rw [List.lookup_eq_none_iff] at hx
        obtain ⟨i, hi, rfl⟩ := List.mem_iff_getElem.mp hc
        have := hx (g.names[i], (V g)[i]'(by rw [(hl g (by simp)).2]; exact hi)) (by
          rw [← List.getElem_zip (h := by simp [(hl g (by simp)).2, hi])]
          exact List.getElem_mem _)
        simp at this
    · have hg' : g ∈ gs := by simpa [he] using hg
      have ih := row_feature V gs (fun x hx => hl x (by simp [hx])) (fun x hx y hy => hd x (by simp [hx]) y (by simp [hy])) g hg'
      conv => rhs; rw [← ih]
      apply List.map_congr_left
      intro c hc
      simp only [Row.ofList, List.flatMap_cons]
      rw [lookup_zip_append (hl h (by simp)).2.symm, lookup_zip_absent (hd g hg h (by simp) he c hc)]
      rfl

theorem lookup_map_pair {α : Type} (F : Val → α) : ∀ (ids : List Val) (x : Val), x ∈ ids → (ids.map fun i => (i, F i)).lookup x = some (F x)
  | i :: ids, x, h => by
    simp only [List.map_cons, List.lookup_cons]
    by_cases he : x = i
    · subst he; simp
    · rw [show (x == i) = false by simpa using he]
      exact lookup_map_pair F ids x (by simpa [he] using h)

theorem valuesAt_flatMap (env : Env) (gs : List Feat) (e : String) (t : Int) (id : Val) (he : ∀ g ∈ gs, g.entity = e) :
    valuesAt env gs e t id = gs.flatMap fun g => valuesAt env [g] g.entity t id := by
  have : ∀ g ∈ gs, valuesAt env [g] g.entity t id =
      if id ∈ (worldAt env t).ids e then meaning (worldAt env t) g id else g.names.map fun _ => g.dflt := by
    intro g hg
    rw [he g hg]
    simp [valuesAt]
  rw [flatMap_congr' this]
  unfold valuesAt
  split <;> rfl

theorem valuesAt_length {env : Env} {gs : List Feat} {e : String} {t : Int} (R : RegularAt env gs e t) (g : Feat) (hg : g ∈ gs) (id : Val) :
    (valuesAt env [g] g.entity t id).length = g.names.length := by
  rw [R.targetEntity g hg]
  unfold valuesAt
  split
  · rename_i h
    have := meaning_length R g hg id h
    simp only [List.flatMap_cons, List.flatMap_nil, List.append_nil]
    exact this
  · simp

/-- The table for some features at a bin. -/
theorem approxTable_ok (c : Call) (gs : List Feat) (e : String) (b : Int) (ids : List Val) (hne : ids ≠ []) (hgs : gs ≠ [])
    (hn : ids.Nodup) (R : RegularAt c.env gs e b) :
    approxTable c gs b ids = .ok { cols := gs.flatMap Feat.names, rows := ids.map fun i => (i, Row.ofList ((gs.flatMap Feat.names).zip
      (gs.flatMap fun g => valuesAt c.env [g] g.entity b i))) } := by
  have hent : ({ c with targets := gs, passCols := [] } : Call).entity = e := by
    cases gs with
    | nil => exact absurd rfl hgs
    | cons g gs => exact R.targetEntity g (by simp)
  have hcut : ((ids.map fun i => (⟨i, some b, []⟩ : CutRow)).map fun r => (r.id, r.time)).Nodup := by
    rw [List.map_map]
    exact List.Pairwise.map _ (fun a b h h' => h (by simpa using h')) hn
  have htimed : timed (ids.map fun i => (⟨i, some b, []⟩ : CutRow)) = ids.map fun i => ⟨i, b, []⟩ := by
    simp [timed, List.filterMap_map, Function.comp_def]
  have hg : GoodRows { c with targets := gs, passCols := [] } (timed (ids.map fun i => (⟨i, some b, []⟩ : CutRow))) := by
    refine ⟨timed_label_nodup _ hcut, ?_, List.nodup_nil, by simp, ?_⟩
    · rw [htimed]; intro r hr
      obtain ⟨i, _, rfl⟩ := List.mem_map.mp hr
      rfl
    · rw [htimed]; intro r hr
      obtain ⟨i, _, rfl⟩ := List.mem_map.mp hr
      rw [hent]; exact R
  obtain ⟨out, ho, hp⟩ := calculateExact_ok { c with targets := gs, passCols := [] } (some ids.length)
    (fun k hk => by cases hk; exact List.length_pos_iff.mpr hne) _ (by rw [htimed]; simpa using hne) hg
  have hre := reindexTable_ok (gs.flatMap Feat.names) (ids.map fun i => (⟨i, some b, []⟩ : CutRow)) hcut
    (fun r => valuesAt c.env gs e r.time r.id ++ r.pass) out (by
      refine hp.trans (.of_eq (List.map_congr_left ?_))
      intro r _
      rw [rowOf, hent]; rfl)
  unfold approxTable
  simp only [ho]
  rw [show ({ c with targets := gs, passCols := [] } : Call).featCols = gs.flatMap Feat.names from rfl, hre]
  simp only [List.map_map, Function.comp_def]
  congr 2
  apply List.map_congr_left
  intro i _
  rw [List.append_nil, valuesAt_flatMap c.env gs e b i R.targetEntity]

/-! ### The trie of tables -/

theorem mem_dropna_dedup (l : List Val) (x : Val) : x ∈ dropna (dedup l) ↔ x ∈ l ∧ x ≠ .null := by
  rw [mem_dropna, mem_dedup]

theorem value_set (v : Option PreTable) (p q : List Edge) (t : PTrie) :
    (Trie.nodeAt none q (Trie.modifyAt none (fun s => s.setValue v) p t)).value = if q = p then v else (Trie.nodeAt none q t).value := by
  show valueAt none q _ = if q = p then v else valueAt none q t
  by_cases hp : p <+: q
  · obtain ⟨s, rfl⟩ := hp
    rw [valueAt_modifyAt_below]
    cases s with
    | nil => simp [valueAt_setValue_nil]
    | cons k s => rw [valueAt_setValue_cons, ← valueAt_append]; simp
  · rw [valueAt_modifyAt_other _ _ _ _ _ hp, if_neg (by rintro rfl; exact hp (List.prefix_refl _))]

theorem approxLoop_ok (c : Call) (index : String) (b : Int) (grp : List TRow) (Good : List Edge → PreTable → Prop) :
    ∀ (l : List (List Edge × List String)) (t : PTrie),
      (∀ x ∈ l, x.2 ≠ [] → ∃ pre, approxAt c index b grp x.1 x.2 = .ok pre ∧ Good x.1 pre) →
      ∃ t', approxLoop c index b grp l t = .ok t' ∧ ∀ q,
        ((∃ x ∈ l, x.1 = q ∧ x.2 ≠ []) ∧ ∃ pre, (Trie.nodeAt none q t').value = some pre ∧ Good q pre) ∨
        ((∀ x ∈ l, x.1 = q → x.2 = []) ∧ (Trie.nodeAt none q t').value = (Trie.nodeAt none q t).value)
  | [], t, _ => ⟨t, rfl, fun q => .inr ⟨by simp, rfl⟩⟩
  | (path, names) :: l, t, h => by
    rw [approxLoop]
    by_cases hn : names = []
    · subst hn
      obtain ⟨t', h1, h2⟩ := approxLoop_ok c index b grp Good l t fun x hx => h x (by simp [hx])
      refine ⟨t', by simpa using h1, fun q => ?_⟩
      rcases h2 q with ⟨⟨x, hx, h3⟩, h4⟩ | ⟨h3, h4⟩
      · exact .inl ⟨⟨x, by simp [hx], h3⟩, h4⟩
      · refine .inr ⟨?_, h4⟩
        intro x hx he
        rcases List.mem_cons.mp hx with rfl | hx
        · rfl
        · exact h3 x hx he
    · obtain ⟨pre, hp, hg⟩ := h (path, names) (by simp) hn
      obtain ⟨t', h1, h2⟩ := approxLoop_ok c index b grp Good l (Trie.modifyAt none (fun s => s.setValue (some pre)) path t)
        fun x hx => h x (by simp [hx])
      refine ⟨t', by simp only [List.isEmpty_iff, hn, if_false, hp]; exact h1, fun q => ?_⟩
      rcases h2 q with ⟨⟨x, hx, h3⟩, h4⟩ | ⟨h3, h4⟩
      · exact .inl ⟨⟨x, by simp [hx], h3⟩, h4⟩
      · rw [value_set] at h4
        by_cases hq : q = path
        · subst hq
          rw [if_pos rfl] at h4
          exact .inl ⟨⟨(q, names), by simp, rfl, hn⟩, pre, h4, hg⟩
        · rw [if_neg hq] at h4
          refine .inr ⟨?_, h4⟩
          intro x hx he
          rcases List.mem_cons.mp hx with rfl | hx
          · exact absurd he.symm hq
          · exact h3 x hx he

theorem gather_wf (targets : List Feat) : Trie.WF (gatherApproximate targets) := by
  unfold gatherApproximate
  suffices ∀ (fs : List Feat) (t : ATrie), Trie.WF t → Trie.WF (fs.foldl (gatherOne targets) t) from this _ _ (Trie.WF_new _)
  intro fs
  induction fs with
  | nil => intro t h; exact h
  | cons f fs ih =>
    intro t h
    rw [List.foldl_cons]
    apply ih
    unfold gatherOne
    split
    · exact h
    · split
      · dsimp only
        split
        · exact Trie.WF_modifyAt _ _ (by rintro ⟨v, cs⟩ h; simpa only [Trie.WF, Trie.setValue] using h) _ _ h
        · exact h
      · exact h

/-- A path carries names in the list of the trie iff the names are hidden there. -/
theorem mem_gather (targets : List Feat) (p : List Edge) (ns : List String) (h : ns ≠ []) :
    (p, ns) ∈ (gatherApproximate targets).toList ↔ hiddenBy (gatherApproximate targets) p = ns := by
  rw [Trie.mem_toList p _ ns (gather_wf targets), hiddenBy, Trie.nodeAt_value]
  cases Trie.lookup? p (gatherApproximate targets) with
  | none => simp [Ne.symm h]
  | some v => simp

theorem given_hidden_nil {targets : List Feat} {G : Given} {q : List Edge} (h : G.names q = []) (f : Feat) : ¬ GivenAt targets G.names q f := by
  intro hg
  have := hg.hidden
  rw [h] at this
  cases this

/-- The tables are right for all the ids of the bin, whatever data the remaining features are computed with. -/
theorem approximateFeatures_ok (c : Call) (e : String) (he : c.entity = e) (b : Int) (grp : List TRow) (Rests : Env → Prop)
    (hR : ∀ rest, Rests rest → rest.ent = c.env.ent ∧ ApproxOk c.env c.targets e rest b) (hsome : ∃ rest, Rests rest) :
    ∃ pre, approximateFeatures c b grp = .ok pre ∧ ∀ rest, Rests rest → ∀ ids, (∀ x ∈ ids, x ∈ grp.map TRow.id) →
      ∀ q, PreAt rest c.targets (lookedUp c.env c.targets b) e ids q (Trie.nodeAt none q pre).value := by
  obtain ⟨rest0, h0⟩ := hsome
  obtain ⟨hent0, ok0⟩ := hR rest0 h0
  obtain ⟨ent, hent, hidx⟩ := ok0.remaining.entityOk.get
  rw [hent0] at hent
  have hidx : ∀ x, indexOf rest0 x = indexOf c.env x := by intro x; simp [indexOf, hent0]
  have hindex : ent.index = indexOf c.env e := by simp [indexOf, hent]
  have hat : ∀ x ∈ (gatherApproximate c.targets).toList, x.2 ≠ [] → ∃ pre, approxAt c (indexOf c.env e) b grp x.1 x.2 = .ok pre ∧
      ∀ rest, Rests rest → ∀ ids, (∀ x ∈ ids, x ∈ grp.map TRow.id) →
        PreAt rest c.targets (lookedUp c.env c.targets b) e ids x.1 (some pre) := by
    rintro ⟨p, ns⟩ hx hns
    have hns' : (lookedUp c.env c.targets b).names p = ns := (mem_gather c.targets p ns hns).mp hx
    simp only at hns ⊢
    have hneed : ∀ n ∈ ns, ∃ g, NeededBy c.targets g ∧ n = g.uniqueName := by
      intro n hn
      rw [← hns'] at hn
      obtain ⟨g, hg, h⟩ := (lookedUp_names ok0.remaining p n).mp hn
      exact ⟨g, hg.neededBy, h⟩
    obtain ⟨gs, hgs, hmap, hmem⟩ := findFeats_ok ok0.remaining.names ns hneed
    have hgn := findFeats_needed ok0.remaining.names ns gs hneed hgs
    have happ : ∀ g, g ∈ gs ↔ Approximated c.targets p g := by
      intro g
      constructor
      · intro hg
        exact hidden_agg ok0.remaining (hgn g hg) (by rw [hns']; exact (hmem g (hgn g hg)).mp hg)
      · intro hg
        rw [hmem g hg.neededBy, ← hns']
        exact (lookedUp_names ok0.remaining p _).mpr ⟨g, hg, rfl⟩
    have hgne : gs ≠ [] := by
      rintro rfl
      exact hns hmap.symm
    obtain ⟨g0, hg0⟩ := List.exists_mem_of_ne_nil _ hgne
    obtain ⟨out, ho, _⟩ := approxIds_ok (env := c.env) hent0 ok0.remaining.window p e (grp.map TRow.id) (grp.map TRow.id)
      (climbs ok0.remaining hent0 ok0.links ((happ g0).mp hg0)) fun x hx _ => hx
    have hcover : ∀ rest, Rests rest → ∀ ids, (∀ x ∈ ids, x ∈ grp.map TRow.id) → ∀ x, ReachedUp (worldOf rest) ids p x →
        x ∈ (worldOf rest).ids (pathEnd e p) → x ∈ dropna (dedup out) := by
      intro rest hr ids hids x hx hv
      obtain ⟨hent1, ok1⟩ := hR rest hr
      obtain ⟨out', ho', hc⟩ := approxIds_ok (env := c.env) hent1 ok1.remaining.window p e ids (grp.map TRow.id)
        (climbs ok1.remaining hent1 ok1.links ((happ g0).mp hg0)) fun x hx _ => hids x hx
      rw [ho] at ho'; cases ho'
      have hok : EntityOk rest (pathEnd e p) := by
        rw [← approximated_entity ok1.remaining ((happ g0).mp hg0)]
        exact (ok1.remaining.wf g0 (hgn g0 hg0)).2.2.1
      have hnn : x ≠ .null := by
        rintro rfl
        exact (visible_ids hok ok1.remaining.window).2 hv
      exact (mem_dropna_dedup out x).mpr ⟨hc x hx hnn, hnn⟩
    have hgs' : findFeats (lookupFeature (featuresByName c.targets)) ns = .ok gs := hgs
    unfold approxAt
    simp only [ho, hgs']
    by_cases hemp : dropna (dedup out) = []
    · rw [if_pos (by simp [hemp])]
      refine ⟨_, rfl, ?_⟩
      intro rest hr ids hids
      obtain ⟨hent1, ok1⟩ := hR rest hr
      refine ⟨?_, ?_⟩
      · intro n hn
        obtain ⟨g, hg, rfl⟩ := List.mem_map.mp hn
        refine ⟨g, (givenAt_iff ok1.remaining p g).mpr ((happ g).mp hg), ?_⟩
        rw [ok1.single p g ((happ g).mp hg)]; simp
      · intro g hg
        have hg' := (givenAt_iff ok1.remaining p g).mp hg
        refine ⟨?_, ?_⟩
        · rw [ok1.single p g hg']
          intro n hn
          rw [List.mem_singleton] at hn
          subst hn
          exact List.mem_map.mpr ⟨g, (happ g).mpr hg', rfl⟩
        · intro x hx hv
          have := hcover rest hr ids hids x hx hv
          rw [hemp] at this; cases this
    · rw [if_neg (by simpa using hemp)]
      have hown := ok0.own p gs hgne fun g hg => (happ g).mp hg
      have hnd : (dropna (dedup out)).Nodup := by
        rw [dropna]
        exact (nodup_dedup out).sublist List.filter_sublist
      rw [approxTable_ok c gs (pathEnd e p) b _ hemp hgne hnd hown]
      refine ⟨_, rfl, ?_⟩
      intro rest hr ids hids
      obtain ⟨hent1, ok1⟩ := hR rest hr
      refine ⟨?_, ?_⟩
      · intro n hn
        obtain ⟨g, hg, hn⟩ := List.mem_flatMap.mp hn
        exact ⟨g, (givenAt_iff ok1.remaining p g).mpr ((happ g).mp hg), hn⟩
      · intro g hg
        have hg' := (happ g).mpr ((givenAt_iff ok1.remaining p g).mp hg)
        refine ⟨fun n hn => List.mem_flatMap.mpr ⟨g, hg', hn⟩, ?_⟩
        intro x hx hv
        have hc := hcover rest hr ids hids x hx hv
        refine ⟨_, lookup_map_pair _ _ x hc, ?_⟩
        have := row_feature (fun g => valuesAt c.env [g] g.entity b x) gs (fun g hg => ⟨(ok1.remaining.wf g (hgn g hg)).2.1, valuesAt_length hown g hg x⟩)
          (fun g hg h hh hne n hn => ok1.remaining.disjoint p g h (.inr ((givenAt_iff ok1.remaining p g).mpr ((happ g).mp hg)))
            (.inr ((givenAt_iff ok1.remaining p h).mpr ((happ h).mp hh))) hne n hn) g hg'
        exact this
  obtain ⟨t, ht, hall⟩ := approxLoop_ok c (indexOf c.env e) b grp (fun p pre => ∀ rest, Rests rest → ∀ ids, (∀ x ∈ ids, x ∈ grp.map TRow.id) →
        PreAt rest c.targets (lookedUp c.env c.targets b) e ids p (some pre)) _ (Trie.new none) hat
  refine ⟨t, ?_, ?_⟩
  · unfold approximateFeatures
    rw [he]
    simp only [Env.getEnt, hent]
    rw [hindex]; exact ht
  · intro rest hr ids hids q
    rcases hall q with ⟨_, pre, hv, hg⟩ | ⟨hno, hv⟩
    · rw [hv]; exact hg rest hr ids hids
    · rw [hv, show (Trie.nodeAt none q (Trie.new none : PTrie)).value = none from valueAt_new none q]
      intro f
      apply given_hidden_nil
      cases hh : (lookedUp c.env c.targets b).names q with
      | nil => rfl
      | cons n ns =>
        have := hno (q, n :: ns) ((mem_gather c.targets q (n :: ns) (by simp)).mpr hh) rfl
        cases this

/-! ### The rows -/

/-- The row of the matrix for a row of the cutoff table, with approximation. -/
def approxRow (c : Call) (e : String) (rest : Env) (b : Int) (r : TRow) : MRow :=
  ⟨r.id, r.time, answerAt (worldOf rest) (lookedUp c.env c.targets b) e c.targets r.id ++ r.pass⟩

theorem stampTarget_id (pass : List String) (b : Int) (r : TRow) (hl : r.pass.length = pass.length) (hn : "target_time" ∉ pass) :
    stampTarget pass b r = r := by
  obtain ⟨id, t, ps⟩ := r
  simp only [stampTarget, TRow.mk.injEq, true_and]
  simp only at hl
  conv => rhs; rw [← List.map_snd_zip (l₁ := pass) (l₂ := ps) (by omega)]
  apply List.map_congr_left
  rintro ⟨k, v⟩ hk
  rw [if_neg]
  rintro rfl
  exact hn (List.of_mem_zip hk).1

theorem keepCells_all (c : Call) (vals : List Val) (hl : vals.length = c.featCols.length) (hf : ∀ n ∈ c.passCols, n ∉ c.featCols) :
    keepCells c vals = vals := by
  unfold keepCells
  rw [List.filter_eq_self.mpr, List.map_snd_zip (by omega)]
  rintro ⟨k, v⟩ hk
  simp only [decide_eq_true_eq]
  intro h
  exact hf k h (List.of_mem_zip hk).1

theorem filter_map_self {α : Type} (F : Val → α) : ∀ (ids : List Val), ids.Nodup → ∀ x ∈ ids,
    (ids.map fun i => (i, F i)).filter (fun y => y.1 = x) = [(x, F x)]
  | i :: ids, hn, x, hx => by
    rw [List.nodup_cons] at hn
    rw [List.map_cons, List.filter_cons]
    by_cases he : i = x
    · subst he
      simp only [decide_true, if_true]
      rw [List.filter_eq_nil_iff.mpr]
      intro y hy
      obtain ⟨j, hj, rfl⟩ := List.mem_map.mp hy
      simp only [decide_eq_true_eq]
      rintro rfl; exact hn.1 hj
    · simp only [he, decide_false, Bool.false_eq_true, if_false]
      exact filter_map_self F ids hn.2 x (by simpa [Ne.symm he] using hx)

/-- The passed columns are fine. -/
structure PassOk (c : Call) (rows : List TRow) : Prop where
  length : ∀ r ∈ rows, r.pass.length = c.passCols.length
  fresh : ∀ n ∈ c.passCols, n ∉ c.featCols
  noTarget : "target_time" ∉ c.passCols
  noOriginal : "_original_time" ∉ c.passCols

theorem PassOk.sub {c : Call} {rows rows' : List TRow} (h : PassOk c rows) (hs : ∀ r ∈ rows', r ∈ rows) : PassOk c rows' :=
  ⟨fun r hr => h.length r (hs r hr), h.fresh, h.noTarget, h.noOriginal⟩

theorem answerAt_length {rest : Env} {features : List Feat} {G : Given} {e : String} (R : RegularFor rest features G e) (pre : PTrie) (id : Val)
    (hpre : ∀ q, PreAt rest features G e [id] q (Trie.nodeAt none q pre).value) :
    (answerAt (worldOf rest) G e features id).length = (features.flatMap Feat.names).length := by
  have key : ∀ (F : Feat → List Val) (l : List Feat), (∀ f ∈ l, (F f).length = f.names.length) → (l.flatMap F).length = (l.flatMap Feat.names).length := by
    intro F l
    induction l with
    | nil => intro _; rfl
    | cons f l ih => intro h; simp only [List.flatMap_cons, List.length_append, h f (by simp), ih fun g hg => h g (by simp [hg])]
  unfold answerAt
  split
  · rename_i hv
    exact key _ _ fun f hf => meaningAt_length R pre f hf id hv hpre
  · exact key _ _ fun f _ => by simp

theorem groupMatrixApprox_ok (c : Call) (e : String) (he : c.entity = e) (b t : Int) (w : Option Window) (pre : PTrie) (grp : List TRow)
    (hne : grp ≠ []) (R : RegularFor (c.at t w) c.targets (lookedUp c.env c.targets b) e)
    (hpre : ∀ ids, (∀ x ∈ ids, x ∈ grp.map TRow.id) → ∀ q, PreAt (c.at t w) c.targets (lookedUp c.env c.targets b) e ids q (Trie.nodeAt none q pre).value)
    (hp : PassOk c grp) (hdup : ((grp.map TRow.id).filter fun i => i ∉ (worldOf (c.at t w)).ids e).Nodup) :
    ∃ out, groupMatrixApprox c w pre t grp = .ok out ∧ out.Perm (grp.map (approxRow c e (c.at t w) b)) := by
  have hperm := isort_perm c.idLe (grp.map TRow.id)
  have hids : ∀ x ∈ isort c.idLe (grp.map TRow.id), x ∈ grp.map TRow.id := fun x hx => hperm.mem_iff.mp hx
  have hidne : isort c.idLe (grp.map TRow.id) ≠ [] := by
    intro h; rw [h] at hperm; exact hne (List.map_eq_nil_iff.mp (List.nil_perm.mp hperm))
  have hdup' : ((isort c.idLe (grp.map TRow.id)).filter fun i => i ∉ (worldOf (c.at t w)).ids e).Nodup :=
    (hperm.filter _).symm.nodup hdup
  have hrun : runCalc (c.at t w) c.targets (gatherApproximate c.targets) pre e (isort c.idLe (grp.map TRow.id)) =
      .ok ((dedup (isort c.idLe (grp.map TRow.id))).map fun i => (i, answerAt (worldOf (c.at t w)) (lookedUp c.env c.targets b) e c.targets i)) := by
    have := run_given_ok R _ pre hidne (hpre _ hids)
    rw [show (lookedUp c.env c.targets b).trie = gatherApproximate c.targets from rfl] at this
    rw [this]
    split
    · rename_i hall
      rw [List.filter_eq_self.mpr (by intro i hi; simpa using hall i hi)] at hdup'
      rw [(dedup_eq_self _).mpr hdup']
    · first | rfl | rw [if_pos hdup']
  unfold groupMatrixApprox
  rw [he]
  simp only [hrun, if_neg hp.noOriginal]
  refine ⟨_, rfl, (isort_perm _ _).trans (.of_eq ?_)⟩
  refine Eq.trans (flatMap_congr' (g := fun r => [approxRow c e (c.at t w) b r]) ?_) (flatMap_single _ _)
  · intro r hr
    have hmem : r.id ∈ dedup (isort c.idLe (grp.map TRow.id)) := by
      rw [mem_dedup, hperm.mem_iff]; exact List.mem_map.mpr ⟨r, hr, rfl⟩
    rw [filter_map_self _ _ (nodup_dedup _) _ hmem]
    simp only [List.map_cons, List.map_nil, approxRow]
    rw [keepCells_all c _ (answerAt_length R pre r.id (hpre [r.id] (by simp only [List.mem_singleton]; rintro x rfl; exact List.mem_map.mpr ⟨r, hr, rfl⟩))) hp.fresh]

/-- The data the remaining features are computed with. -/
def restOf (c : Call) (now : Int) (t : Int) : Env :=
  if noUnapproximatedAggs c.targets then c.at now none else c.at t c.env.window

theorem binMatrix_ok (c : Call) (e : String) (he : c.entity = e) (now : Int) (size : Option Nat) (hs : ∀ k, size = some k → 0 < k) (b : Int)
    (rows : List TRow) (hne : rows ≠ []) (hok : ∀ r ∈ rows, ApproxOk c.env c.targets e (restOf c now r.time) b) (hp : PassOk c rows)
    (hlab : (rows.map TRow.label).Nodup)
    (hdup : noUnapproximatedAggs c.targets = true → ((rows.map TRow.id).filter fun i => i ∉ (worldOf (c.at now none)).ids e).Nodup) :
    ∃ out, binMatrix c now size b rows = .ok out ∧ out.Perm (rows.map fun r => approxRow c e (restOf c now r.time) b r) := by
  have hstamp : rows.map (stampTarget c.passCols b) = rows := by
    conv => rhs; rw [← List.map_id' rows]
    apply List.map_congr_left
    intro r hr
    exact stampTarget_id _ _ _ (hp.length r hr) hp.noTarget
  obtain ⟨r0, hr0⟩ := List.exists_mem_of_ne_nil _ hne
  obtain ⟨pre, hpre, hall⟩ := approximateFeatures_ok c e he b rows (fun rest => ∃ r ∈ rows, rest = restOf c now r.time) (by
    rintro rest ⟨r, hr, rfl⟩
    refine ⟨?_, hok r hr⟩
    unfold restOf; split <;> rfl) ⟨_, r0, hr0, rfl⟩
  unfold binMatrix
  simp only [hpre, hstamp]
  by_cases htog : noUnapproximatedAggs c.targets = true
  · simp only [htog, if_true]
    have hrest : ∀ t, restOf c now t = c.at now none := by intro t; simp [restOf, htog]
    obtain ⟨ps, hps, h1, h2⟩ := pieces_sub size hs [(now, rows)] (by simpa using hne)
    simp only [hps]
    obtain ⟨out, ho, hperm⟩ := concatAll_perm (fun p : Int × List TRow => groupMatrixApprox c none pre p.1 p.2)
      (fun p => p.2.map fun r => approxRow c e (restOf c now r.time) b r) ps (by
        intro p hpm
        obtain ⟨hpne, g, hg, h3, hsub⟩ := h1 p hpm
        rw [List.mem_singleton] at hg
        subst hg
        simp only at h3 hsub
        rw [h3]
        simp only [hrest]
        exact groupMatrixApprox_ok c e he b now none pre p.2 hpne (by have := (hok r0 hr0).remaining; rwa [hrest] at this) (by
          intro ids hids
          have := hall (c.at now none) ⟨r0, hr0, (hrest _).symm⟩ ids fun x hx => (hsub.map TRow.id).subset (hids x hx)
          exact this) (hp.sub fun r hr => hsub.subset hr) ((hdup htog).sublist ((hsub.map TRow.id).filter _)))
    refine ⟨out, ho, hperm.trans (.of_eq ?_)⟩
    rw [flatMap_map_perm, h2]; simp
  · simp only [htog, Bool.false_eq_true, if_false]
    have hrest : ∀ t, restOf c now t = c.at t c.env.window := by intro t; simp [restOf, htog]
    obtain ⟨ps, hps, h1, h2⟩ := pieces_sub size hs (groupByKey TRow.time rows) fun x hx => (mem_groupByKey hx).1
    simp only [hps]
    obtain ⟨out, ho, hperm⟩ := concatAll_perm (fun p : Int × List TRow => groupMatrixApprox c c.env.window pre p.1 p.2)
      (fun p => p.2.map fun r => approxRow c e (restOf c now r.time) b r) ps (by
        intro p hpm
        obtain ⟨hpne, g, hg, h3, hsub⟩ := h1 p hpm
        obtain ⟨_, hsub', htime⟩ := mem_groupByKey hg
        have hsub2 := hsub.trans hsub'
        have ht : ∀ r ∈ p.2, r.time = p.1 := fun r hr => by rw [h3]; exact htime r (hsub.subset hr)
        obtain ⟨r1, hr1⟩ := List.exists_mem_of_ne_nil _ hpne
        have hmap : (p.2.map fun r => approxRow c e (restOf c now r.time) b r) = p.2.map (approxRow c e (c.at p.1 c.env.window) b) := by
          apply List.map_congr_left
          intro r hr
          rw [hrest, ht r hr]
        rw [hmap]
        have hr1' : restOf c now r1.time = c.at p.1 c.env.window := by rw [hrest, ht r1 hr1]
        exact groupMatrixApprox_ok c e he b p.1 c.env.window pre p.2 hpne (by
            have := (hok r1 (hsub2.subset hr1)).remaining; rwa [hr1'] at this) (by
          intro ids hids
          exact hall (c.at p.1 c.env.window) ⟨r1, hsub2.subset hr1, hr1'.symm⟩ ids fun x hx => (hsub2.map TRow.id).subset (hids x hx))
          (hp.sub fun r hr => hsub2.subset hr)
          ((nodup_ids_of_label ht (hlab.sublist (hsub2.map _))).sublist List.filter_sublist))
    refine ⟨out, ho, hperm.trans ?_⟩
    rw [flatMap_map_perm, h2]
    exact (groupByKey_perm TRow.time rows).map _

theorem calculateBinned_ok (c : Call) (e : String) (he : c.entity = e) (now : Int) (size : Option Nat) (hs : ∀ k, size = some k → 0 < k)
    (rows : List (Int × TRow)) (hne : rows ≠ []) (hok : ∀ x ∈ rows, ApproxOk c.env c.targets e (restOf c now x.2.time) x.1)
    (hp : PassOk c (rows.map Prod.snd)) (hlab : ((rows.map Prod.snd).map TRow.label).Nodup)
    (hdup : noUnapproximatedAggs c.targets = true → ∀ b,
      (((rows.filter fun x => x.1 = b).map fun x => x.2.id).filter fun i => i ∉ (worldOf (c.at now none)).ids e).Nodup) :
    ∃ out, calculateBinned c now size rows = .ok out ∧ out.Perm (rows.map fun x => approxRow c e (restOf c now x.2.time) x.1 x.2) := by
  unfold calculateBinned
  have hgne : (groupByKey Prod.fst rows).isEmpty = false := by
    have := groupByKey_ne_nil (key := Prod.fst) hne
    simpa using this
  simp only [hgne, Bool.false_eq_true, if_false]
  obtain ⟨out, ho, hperm⟩ := concatAll_perm (fun g : Int × List (Int × TRow) => binMatrix c now size g.1 (g.2.map Prod.snd))
    (fun g => g.2.map fun x => approxRow c e (restOf c now x.2.time) x.1 x.2) (groupByKey Prod.fst rows) (by
      intro g hg
      obtain ⟨hgn, hsub, hkey⟩ := mem_groupByKey hg
      obtain ⟨out, ho, hp'⟩ := binMatrix_ok c e he now size hs g.1 (g.2.map Prod.snd) (by simpa using hgn) (by
          intro r hr
          obtain ⟨x, hx, rfl⟩ := List.mem_map.mp hr
          have := hok x (hsub.subset hx)
          rwa [hkey x hx] at this)
        (hp.sub fun r hr => (hsub.map Prod.snd).subset hr) (hlab.sublist ((hsub.map Prod.snd).map _)) (by
          intro htog
          have hf : g.2.Sublist (rows.filter fun x => x.1 = g.1) := by
            have := hsub.filter fun x => decide (x.1 = g.1)
            rwa [List.filter_eq_self.mpr (by intro x hx; simpa using hkey x hx)] at this
          rw [List.map_map]
          exact (hdup htog g.1).sublist ((hf.map _).filter _))
      refine ⟨out, ho, hp'.trans (.of_eq ?_)⟩
      rw [List.map_map]
      apply List.map_congr_left
      intro x hx
      simp only [Function.comp]
      rw [hkey x hx])
  refine ⟨out, ho, hperm.trans ?_⟩
  rw [flatMap_map_perm]
  exact (groupByKey_perm Prod.fst rows).map _

/-! ### The decision whether anything else is an aggregation -/

theorem uses_mono {ign ign' : List String} (h : ∀ n ∈ ign', n ∈ ign) {f g : Feat} (hu : Uses ign f g) : Uses ign' f g := by
  induction hu with
  | direct hd hn => exact .direct hd fun h' => hn (h _ h')
  | deep hd hn _ ih => exact .deep hd (fun h' => hn (h _ h')) ih

theorem isAgg_iff (f : Feat) : f.isAgg = true ↔ IsAgg f := by
  unfold Feat.isAgg IsAgg
  cases f.kind <;> simp

theorem noUnapproximatedAggs_iff {env rest : Env} {features : List Feat} {e : String} {b : Int}
    (R : RegularFor rest features (lookedUp env features b) e) : noUnapproximatedAggs features = true ↔ OnlyApproximated features := by
  have hall : ∀ n, n ∈ (gatherApproximate features).toList.flatMap Prod.snd ↔ ∃ p g, Approximated features p g ∧ n = g.uniqueName := by
    intro n
    rw [List.mem_flatMap]
    constructor
    · rintro ⟨⟨p, ns⟩, hx, hn⟩
      have := (mem_gather features p ns (List.ne_nil_of_mem hn)).mp hx
      obtain ⟨g, hg, h⟩ := (lookedUp_names R p n).mp (by rw [show (lookedUp env features b).names p = ns from this]; exact hn)
      exact ⟨p, g, hg, h⟩
    · rintro ⟨p, g, hg, h⟩
      have hm := (lookedUp_names R p n).mpr ⟨g, hg, h⟩
      exact ⟨(p, (lookedUp env features b).names p), (mem_gather features p _ (List.ne_nil_of_mem hm)).mpr rfl, hm⟩
  unfold noUnapproximatedAggs OnlyApproximated
  simp only [List.all_eq_true, Bool.and_eq_true, Bool.not_eq_true', ← Bool.not_eq_true, isAgg_iff, mem_deepDeps]
  constructor
  · intro h ign hign f hf
    refine ⟨(h f hf).1, fun d hd => (h f hf).2 d (uses_mono ?_ hd)⟩
    intro n hn
    rw [hign, ← hall]; exact hn
  · intro h f hf
    exact h _ hall f hf

/-! ### The bins -/

theorem refill_map (F : Int → Int) : ∀ rows : List TRow, refill ((rows.map TRow.time).map F) rows = rows.map fun r => (F r.time, r)
  | [] => rfl
  | r :: rows => by simp only [List.map_cons, refill, refill_map F rows]

theorem isFloor_unique {w t a b : Int} (ha : IsFloor w t a) (hb : IsFloor w t b) : a = b := by
  obtain ⟨⟨k, rfl⟩, h1, h2⟩ := ha
  obtain ⟨⟨l, rfl⟩, h3, h4⟩ := hb
  have := h2 l h3
  have := h4 k h1
  omega

end FT

namespace FT
open Spec

/-! ### At the time of a bin nothing is approximate -/

theorem map_one_congr {l : List Val} {f g : Val → List Val} (h : ∀ x ∈ l, f x = g x) : l.map (one f) = l.map (one g) :=
  List.map_congr_left fun x hx => by rw [one, one, h x hx]

/-- What a feature means depends on what its base features mean for the visible instances of their entity only. -/
theorem meaningStep_congr {env : Env} {f : Feat} (hw : WellFormed env f) (w : World) (M M' : Feat → Val → List Val)
    (h : ∀ d, d ∈ f.bases ∨ d ∈ f.wh → ∀ x ∈ w.ids d.entity, M d x = M' d x) (id : Val) (hid : id ∈ w.ids f.entity) :
    meaningStep w f.info (f.bases.map M) (f.wh.map M) id = meaningStep w f.info (f.bases.map M') (f.wh.map M') id := by
  obtain ⟨i, bs, wh⟩ := f
  obtain ⟨_, _, _, hw⟩ := hw
  simp only [Feat.bases_mk, Feat.wh_mk] at h ⊢
  show meaningStep w i _ _ id = meaningStep w i _ _ id
  have hk' : (Feat.mk i bs wh).kind = i.kind := rfl
  have he' : (Feat.mk i bs wh).entity = i.entity := rfl
  rw [he'] at hid
  rw [hk'] at hw
  unfold meaningStep
  cases hk : i.kind with
  | identity v => rfl
  | slice n =>
    simp only [hk, Feat.bases_mk] at hw ⊢
    obtain ⟨_, _, b, rfl, hb, _⟩ := hw
    simp only [List.map_cons]
    rw [h b (.inl (by simp)) id (by rw [hb]; exact hid)]
  | direct r =>
    simp only [hk, Feat.bases_mk] at hw ⊢
    obtain ⟨_, _, _, b, rfl, hb, _⟩ := hw
    simp only [List.map_cons]
    split
    · rename_i hp
      rw [h b (.inl (by simp)) _ (by rw [hb]; exact hp)]
    · rfl
  | agg path p prev u =>
    simp only [hk, Feat.bases_mk, Feat.wh_mk] at hw ⊢
    obtain ⟨_, _, _, _, ⟨ce, hpd, hd⟩, _⟩ := hw
    have hce : (path.getLast?.map Relationship.childE).getD "" = ce := by rw [hpd.last_child]; rfl
    rw [hce]
    have hbelow : ((w.ids ce).filter fun x => w.up path.reverse x = id ∧ ∀ c ∈ wh.map M, one c x = .bool true) =
        (w.ids ce).filter fun x => w.up path.reverse x = id ∧ ∀ c ∈ wh.map M', one c x = .bool true := by
      apply List.filter_congr
      intro x hx
      have : (∀ c ∈ wh.map M, one c x = .bool true) ↔ ∀ c ∈ wh.map M', one c x = .bool true := by
        simp only [List.forall_mem_map]
        constructor
        · intro hh d hd'
          have := hh d hd'
          rwa [one, h d (.inr hd') x (by rw [(hd d (.inr hd')).1]; exact hx)] at this
        · intro hh d hd'
          have := hh d hd'
          rwa [one, ← h d (.inr hd') x (by rw [(hd d (.inr hd')).1]; exact hx)] at this
      simp only [this]
    have hms : aggMembers w path prev (wh.map M) ce id = aggMembers w path prev (wh.map M') ce id := by
      unfold aggMembers
      rw [hbelow]
    rw [hms]
    have hsub : ∀ x ∈ aggMembers w path prev (wh.map M') ce id, x ∈ w.ids ce := by
      intro x hx
      unfold aggMembers at hx
      have : x ∈ (w.ids ce).filter fun x => w.up path.reverse x = id ∧ ∀ c ∈ wh.map M', one c x = .bool true := by
        revert hx
        generalize ((w.ids ce).filter fun x => w.up path.reverse x = id ∧ ∀ c ∈ wh.map M', one c x = .bool true) = l
        intro hx
        cases prev with
        | none => exact hx
        | some times =>
          simp only at hx
          split at hx
          · unfold lastObs at hx
            split at hx <;> exact List.mem_of_mem_drop hx
          · exact (List.mem_filter.mp hx).1
          · exact hx
      exact (List.mem_filter.mp this).1
    have hargs : (bs.map M).map (fun b => (aggMembers w path prev (wh.map M') ce id).map (one b)) =
        (bs.map M').map fun b => (aggMembers w path prev (wh.map M') ce id).map (one b) := by
      rw [List.map_map, List.map_map]
      apply List.map_congr_left
      intro b hb
      exact map_one_congr fun x hx => h b (.inl hb) x (by rw [(hd b (.inl hb)).1]; exact hsub x hx)
    rw [hargs]
  | trans p =>
    simp only [hk, Feat.bases_mk] at hw ⊢
    obtain ⟨_, _, hd, _⟩ := hw
    unfold transOn
    have hargs : (bs.map M).map (fun b => (w.ids i.entity).map (one b)) = (bs.map M').map fun b => (w.ids i.entity).map (one b) := by
      rw [List.map_map, List.map_map]
      apply List.map_congr_left
      intro b hb
      exact map_one_congr fun x hx => h b (.inl hb) x (by rw [(hd b hb).1]; exact hx)
    rw [hargs]
  | groupby p =>
    simp only [hk, Feat.bases_mk] at hw ⊢
    obtain ⟨_, _, hd, _⟩ := hw
    rw [List.getLast?_map, List.getLast?_map]
    cases hg : bs.getLast? with
    | none => rfl
    | some g =>
      have hgm : g ∈ bs := List.mem_of_getLast? hg
      have hone : ∀ x ∈ w.ids i.entity, one (M g) x = one (M' g) x := by
        intro x hx
        rw [one, one, h g (.inl hgm) x (by rw [(hd g hgm).1]; exact hx)]
      simp only [Option.map_some]
      rw [hone id hid]
      have hfil : ((w.ids i.entity).filter fun x => one (M g) x = one (M' g) id) = (w.ids i.entity).filter fun x => one (M' g) x = one (M' g) id := by
        apply List.filter_congr
        intro x hx
        rw [hone x hx]
      rw [hfil]
      unfold transOn
      have hargs : (bs.map M).dropLast.map (fun b => ((w.ids i.entity).filter fun x => one (M' g) x = one (M' g) id).map (one b)) =
          (bs.map M').dropLast.map fun b => ((w.ids i.entity).filter fun x => one (M' g) x = one (M' g) id).map (one b) := by
        rw [← List.map_dropLast, ← List.map_dropLast, List.map_map, List.map_map]
        apply List.map_congr_left
        intro b hb
        have hb' := (List.dropLast_sublist bs).subset hb
        exact map_one_congr fun x hx => h b (.inl hb') x (by rw [(hd b hb').1]; exact (List.mem_filter.mp hx).1)
      rw [hargs]

/-- If the given values are those by definition, so are all others. -/
theorem meaningAt_exact {env : Env} {features : List Feat} {G : Given} (hwf : ∀ g, NeededBy features g → WellFormed env g)
    (w : World) (hG : ∀ g, NeededBy features g → (∀ n, g.kind ≠ .slice n) → ∀ x ∈ w.ids g.entity, G.value g x = meaning w g x) :
    ∀ (n : Nat) (f : Feat), f.size ≤ n → NeededBy features f → ∀ (p : List Edge), ∀ x ∈ w.ids f.entity,
      meaningAt w G p f x = meaning w f x := by
  intro n
  induction n with
  | zero => intro f h; have := f.size_pos; omega
  | succ n ih =>
    intro f hs hf p x hx
    have hdep : ∀ (p : List Edge) d, d ∈ f.bases ∨ d ∈ f.wh → ∀ x ∈ w.ids d.entity, meaningAt w G p d x = meaning w d x := by
      intro p d hd x hx
      have := Feat.size_dep (Feat.mem_deps.mpr hd)
      exact ih d (by omega) (neededBy_dep hf hd) p x hx
    have hmean : meaning w f = meaningStep w f.info (f.bases.map (meaning w)) (f.wh.map (meaning w)) := by
      rw [meaning_unfold]
      have : ∀ l, meanings w l = l.map (meaning w) := by
        intro l
        induction l with
        | nil => rw [meanings]; rfl
        | cons a l ih => rw [meanings, ih]; rfl
      rw [this, this]
    by_cases hk : ∃ n, f.kind = .slice n
    · obtain ⟨n, hk⟩ := hk
      rw [meaningAt_slice w G p hk, hmean]
      exact meaningStep_congr (hwf f hf) w _ _ (hdep p) x hx
    · have hk : ∀ n, f.kind ≠ .slice n := fun n h => hk ⟨n, h⟩
      by_cases hg : f.uniqueName ∈ G.names p
      · rw [meaningAt_given w G hk hg]
        exact hG f hf hk x hx
      · rw [meaningAt_computed w G hk hg, hmean]
        exact meaningStep_congr (hwf f hf) w _ _ (hdep _) x hx

/-- At the time of the bin the row is exact. -/
theorem answerAt_exact {env : Env} {features : List Feat} {e : String} {t : Int}
    (R : RegularFor { env with timeLast := t } features (lookedUp env features t) e) (id : Val) :
    answerAt (worldAt env t) (lookedUp env features t) e features id = valuesAt env features e t id := by
  unfold answerAt valuesAt
  split
  · rename_i hid
    apply flatMap_congr'
    intro f hf
    refine meaningAt_exact R.wf _ ?_ f.size f (Nat.le_refl _) ⟨f, hf, .inl rfl⟩ [] id (by rw [R.targetEntity f hf]; exact hid)
    intro g _ _ x hx
    simp only [lookedUp, valuesAt, if_pos hx, List.flatMap_cons, List.flatMap_nil, List.append_nil]
  · rfl

end FT
