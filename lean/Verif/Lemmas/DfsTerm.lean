import Verif.Lemmas.Dfs
import Verif.Props.Schema
namespace FT
open FT.Spec

/-- A computation that returns or raises. -/
def Returns {α : Type} (x : Except DfsErr α) : Prop := x ≠ .error .diverges

theorem gatherE_returns {α β : Type} {f : α → Except DfsErr (List β)} (hf : ∀ a, Returns (f a)) : ∀ l, Returns (gatherE f l)
  | [] => by simp [gatherE, Returns]
  | a :: l => by
    have h1 := hf a
    have h2 := gatherE_returns hf l
    unfold Returns at *
    simp only [gatherE]
    cases h : f a with
    | error e => intro he; exact h1 (by simpa [h] using he)
    | ok x =>
      cases h' : gatherE f l with
      | error e => intro he; exact h2 (by simpa [h'] using he)
      | ok y => simp

theorem eachE_returns {α : Type} {f : α → Except DfsErr DFeat} (hf : ∀ a, Returns (f a)) (l : List α) : Returns (eachE f l) := by
  refine gatherE_returns (fun a => ?_) l
  have := hf a
  unfold Returns at *
  cases h : f a with
  | error e => intro he; exact this (by simpa [h] using he)
  | ok x => simp

theorem foldE_returns {σ α : Type} {f : σ → α → Except DfsErr σ} (hf : ∀ s a, Returns (f s a)) (l : List α) (s : σ) : Returns (foldE f s l) :=
  foldE_error (f := f) (fun _ => True) DfsErr.diverges trivial (fun a _ s _ => hf s a) fun _ _ _ _ _ _ => trivial

section
variable {S : Synth}

theorem addNew_returns (st : DState) (f : DFeat) : Returns (addNew S st f) := by
  unfold addNew Returns
  split
  · simp
  · split <;> simp

theorem addAll_returns (st : DState) (l : List DFeat) : Returns (foldE (addNew S) st l) :=
  foldE_returns (fun s a => addNew_returns s a) l st

theorem mkTrans_returns (e : String) (p : Prim) (t : List DFeat) : Returns (mkTrans S e p t) := by
  unfold mkTrans Returns; split <;> simp
theorem mkGroupby_returns (e : String) (p : Prim) (t : List DFeat) (g : DFeat) : Returns (mkGroupby S e p t g) := by
  unfold mkGroupby Returns; split <;> simp
theorem mkAgg_returns (e : String) (path : RelPath) (p : Prim) (t w : List DFeat) : Returns (mkAgg S e path p t w) := by
  unfold mkAgg Returns; split <;> simp

theorem transOf_returns (st : DState) (e : String) (m : Option Int) (req : Bool) (p : Prim) : Returns (transOf S st e m req p) := by
  unfold transOf
  split
  · simp [Returns]
  · exact eachE_returns (mkTrans_returns e p) _

theorem groupbyOf_returns (st : DState) (e : String) (m : Option Int) (req : Bool) (p : Prim) : Returns (groupbyOf S st e m req p) := by
  unfold groupbyOf
  split
  · simp [Returns]
  · refine gatherE_returns (fun t => ?_) _
    split
    · simp [Returns]
    · refine gatherE_returns (fun g => ?_) _
      split
      · next g =>
        have := mkGroupby_returns (S := S) e p t g
        unfold Returns at *
        cases h : mkGroupby S e p t g with
        | error err => intro he; exact this (by simpa [h] using he)
        | ok x => simp
      · simp [Returns]

theorem buildTransform_returns (e : String) (m : Option Int) (req : Bool) (st : DState) : Returns (buildTransform S e m req st) := by
  unfold buildTransform
  split
  · next err h => intro he; cases he; exact gatherE_returns (transOf_returns st e (lower1 m) req) S.trans h
  · split
    · next err h => intro he; cases he; exact gatherE_returns (groupbyOf_returns st e (lower1 m) req) S.groupbys h
    · exact addAll_returns _ _

theorem stackOk_returns (p : Prim) (t : List DFeat) : Returns (stackOk p t) := by
  unfold stackOk Returns
  repeat' split
  all_goals simp

theorem whereFeatures_returns (st : DState) (e c : String) (path : RelPath) (p : Prim) (t : List DFeat) : Returns (whereFeatures S st e c path p t) := by
  unfold whereFeatures
  split
  · simp [Returns]
  · split
    · simp [Returns]
    · exact eachE_returns (fun w => mkAgg_returns e path p t [w]) _

theorem aggInput_returns (e c : String) (path : RelPath) (p : Prim) (st : DState) (t : List DFeat) : Returns (aggInput S e c path p st t) := by
  unfold aggInput
  split
  · next err h => intro he; cases he; exact stackOk_returns p t h
  · simp [Returns]
  · split
    · next err h => intro he; cases he; exact mkAgg_returns e path p t [] h
    · split
      · next err h => intro he; cases he; exact addNew_returns _ _ h
      · split
        · next err h => intro he; cases he; exact whereFeatures_returns st e c path p t h
        · exact addAll_returns _ _

theorem buildAgg_returns (e c : String) (path : RelPath) (m : Option Int) (st : DState) : Returns (buildAgg S e c path m st) := by
  refine foldE_returns (fun s p => ?_) _ _
  unfold aggPrimStep
  split
  · simp [Returns]
  · exact foldE_returns (fun s t => aggInput_returns e c path p s t) _ _

theorem aggAll_returns (hac : Acyclic S.rels) (e : String) (path : RelPath) (m : Option Int) (st : DState) : Returns (aggAll S e path m st) := by
  obtain ⟨out, ho, _⟩ := C03_deep_backward S.rels hac e
  unfold aggAll
  rw [ho]
  refine foldE_returns (fun s x => ?_) _ _
  split
  · exact buildAgg_returns _ _ _ _ _
  · simp [Returns]

theorem middleSteps_returns (hac : Acyclic S.rels) (e : String) (path : RelPath) (m : Option Int) (st : DState) :
    Returns (middleSteps S e path m st) := by
  unfold middleSteps
  split
  · next err h => intro he; cases he; exact aggAll_returns hac e path m st h
  · exact buildTransform_returns _ _ _ _

theorem lastSteps_returns (e : String) (path : RelPath) (m : Option Int) (st : DState) : Returns (lastSteps S e path m st) := by
  unfold lastSteps
  split
  · next err h =>
    intro he; cases he
    refine foldE_returns (fun s r => ?_) _ _ h
    split
    · exact addAll_returns _ _
    · simp [Returns]
  · split
    · next err h => intro he; cases he; exact buildTransform_returns _ _ _ _ h
    · simp [Returns]

/-- The entities not yet visited. -/
def unvisited (S : Synth) (st : DState) : Nat := (S.ents.filter fun d => !(st.feats.map Prod.fst).contains d.id).length

theorem unvisited_mono {st st' : DState} (h : ∀ e ∈ st.feats.map Prod.fst, e ∈ st'.feats.map Prod.fst) : unvisited S st' ≤ unvisited S st := by
  refine filter_length_le (fun d hd => ?_) _
  simp only [Bool.not_eq_true', List.contains_eq_mem, decide_eq_false_iff_not] at hd ⊢
  exact fun hm => hd (h _ hm)

theorem unvisited_enter {st st' : DState} {d : DEnt} (hd : d ∈ S.ents) (hn : d.id ∉ st.feats.map Prod.fst)
    (h : ∀ e ∈ st.feats.map Prod.fst, e ∈ st'.feats.map Prod.fst) (he : d.id ∈ st'.feats.map Prod.fst) : unvisited S st' < unvisited S st := by
  refine filter_length_lt (a := d) (fun x hx => ?_) hd ?_ ?_
  · simp only [Bool.not_eq_true', List.contains_eq_mem, decide_eq_false_iff_not] at hx ⊢
    exact fun hm => hx (h _ hm)
  · simpa using hn
  · simpa using he

variable {target : String} {M : Option Int}

theorem runDfs_enough (hL : ∀ l, (S.L.setOrder l).Perm l) (hac : Acyclic S.rels) : ∀ (n : Nat) (st : DState) (e : String) (path : RelPath) (m : Option Int),
    StateOk S target M st → e ∉ st.feats.map Prod.fst → Open S target e → Level S target M e m → unvisited S st < n →
    Returns (runDfs S n st e path m) ∧ ∀ k, runDfs S (n + k) st e path m = runDfs S n st e path m
  | 0, _, _, _, _, _, _, _, _, h => absurd h (Nat.not_lt_zero _)
  | n + 1, st, e, path, m, h, he, ho, hm, hn => by
    have hvis : ∀ (s1 : DState) (l : List (String × RelPath)), (∀ x ∈ l, Level S target M x.1 (lower1 m)) → StateOk S target M s1 → unvisited S s1 < n →
        Returns (visitAll S (runDfs S n) path m s1 l) ∧
          ∀ k, visitAll S (runDfs S (n + k)) path m s1 l = visitAll S (runDfs S n) path m s1 l := by
      intro s1 l hl h1 hu
      let P : DState → Prop := fun s => VisitOk S target M s1 s
      have hP0 : P s1 := ⟨h1, fun _ hx => hx⟩
      have hnot : ∀ {s : DState} {x : String × RelPath}, ¬((s.feats.any fun p => p.1 == x.1) || !allowedVia S path x) = true →
          x.1 ∉ s.feats.map Prod.fst ∧ Open S target x.1 := by
        intro s x hc
        simp only [Bool.or_eq_true, Bool.not_eq_true', not_or, Bool.not_eq_false] at hc
        refine ⟨fun hmem => hc.1 ?_, .inr (allowedVia_iff hc.2)⟩
        obtain ⟨q, hq, hqx⟩ := List.mem_map.mp hmem
        exact List.any_eq_true.mpr ⟨q, hq, by simpa using hqx⟩
      have hstep : ∀ x ∈ l, ∀ s s', P s → (if (s.feats.any fun p => p.1 == x.1) || !allowedVia S path x then .ok s
          else runDfs S n s x.1 (path ++ x.2) (lower1 m)) = .ok s' → P s' := by
        intro x hx s s' hs hok
        split at hok
        · cases hok; exact hs
        · next hc =>
          obtain ⟨h2, h3⟩ := hnot hc
          exact VisitOk.trans hs (runDfs_step hL n s s' _ _ _ hs.ok h2 h3 (hl x hx) hok)
      refine ⟨?_, fun k => ?_⟩
      · refine foldE_error P .diverges hP0 (fun x hx s hs => ?_) hstep
        split
        · simp
        · next hc =>
          obtain ⟨h2, h3⟩ := hnot hc
          exact (runDfs_enough hL hac n s x.1 (path ++ x.2) (lower1 m) hs.ok h2 h3 (hl x hx)
            (Nat.lt_of_le_of_lt (unvisited_mono hs.grows) hu)).1
      · refine (foldE_congr P hP0 (fun x hx s hs => ?_) hstep).symm
        split
        · rfl
        · next hc =>
          obtain ⟨h2, h3⟩ := hnot hc
          exact ((runDfs_enough hL hac n s x.1 (path ++ x.2) (lower1 m) hs.ok h2 h3 (hl x hx)
            (Nat.lt_of_le_of_lt (unvisited_mono hs.grows) hu)).2 k).symm
    have key : Returns (visit S (runDfs S n) st e path m) ∧
        ∀ k, visit S (runDfs S (n + k)) st e path m = visit S (runDfs S n) st e path m := by
      unfold visit
      by_cases hex : exhausted m = true
      · simp [hex, Returns]
      · simp only [hex]
        cases hd : S.ents.find? (fun d => d.id == e) with
        | none => simp [Returns]
        | some d =>
          obtain ⟨hd1, hd2⟩ := find_ent hd
          have h0 : StateOk S target M { st with feats := (e, []) :: st.feats } := by
            refine ⟨by simpa using ⟨by simpa using he, h.keys⟩, fun q hq => ?_, h.clauses⟩
            rcases List.mem_cons.mp hq with rfl | hq
            · exact ⟨ho, .nil, by simp⟩
            · exact h.feats q hq
          dsimp only
          cases hs1 : addIdentity S d { st with feats := (e, []) :: st.feats } with
          | error err =>
            refine ⟨fun hc => ?_, fun k => rfl⟩
            simp only at hc
            cases hc
            exact addAll_returns _ _ hs1
          | ok s1 =>
            have h1 := (addIdentity_step h0 hd1 (hd2 ▸ ho) (hd2 ▸ hm.reached hex) hs1).visitOk
            have hu : unvisited S s1 < n := by
              have := unvisited_enter (S := S) (st := st) (st' := s1) hd1 (hd2 ▸ he)
                (fun x hx => h1.grows x (by simp at hx ⊢; exact .inr hx)) (h1.grows _ (by simp [hd2]))
              omega
            dsimp only
            obtain ⟨v1, v2⟩ := hvis s1 (getBackwardEntities S.rels e) (level_backward hm) h1.ok hu
            simp only [v2]
            cases hs2 : visitAll S (runDfs S n) path m s1 (getBackwardEntities S.rels e) with
            | error err =>
              refine ⟨fun hc => ?_, fun k => rfl⟩
              simp only at hc
              cases hc
              exact v1 hs2
            | ok s2 =>
              have h2 := h1.trans (visitAll_step (runDfs_step hL n) h1.ok (level_backward hm) hs2)
              have hu2 : unvisited S s2 < n :=
                Nat.lt_of_le_of_lt (unvisited_mono (visitAll_step (runDfs_step hL n) h1.ok (level_backward hm) hs2).grows) hu
              dsimp only
              cases hs3 : middleSteps S e path m s2 with
              | error err =>
                refine ⟨fun hc => ?_, fun k => rfl⟩
                simp only at hc
                cases hc
                exact middleSteps_returns hac e path m s2 hs3
              | ok s3 =>
                have h3 := middleSteps_step hL h2.ok hm ho hs3
                have hu3 : unvisited S s3 < n := Nat.lt_of_le_of_lt (unvisited_mono h3.visitOk.grows) hu2
                dsimp only
                obtain ⟨w1, w2⟩ := hvis s3 (getForwardEntities S.rels e) (level_forward hm) h3.ok hu3
                simp only [w2]
                cases hs4 : visitAll S (runDfs S n) path m s3 (getForwardEntities S.rels e) with
                | error err =>
                  refine ⟨fun hc => ?_, fun k => trivial⟩
                  simp only at hc
                  cases hc
                  exact w1 hs4
                | ok s4 => exact ⟨lastSteps_returns e path m s4, fun k => trivial⟩
    refine ⟨key.1, fun k => ?_⟩
    have : n + 1 + k = (n + k) + 1 := by omega
    rw [this]
    exact key.2 k

end
end FT
