import Verif.Model.Encoded
import Verif.Lemmas.Encode
import Verif.Lemmas.CfmApprox
import Verif.Lemmas.DfsMatrix
/-! Lemmas on features returned by `encode_features` -/
namespace FT
open Spec

theorem flatMap_parts {α β : Type} {A B : α → List β} : ∀ {l : List α}, (∀ x ∈ l, (A x).length = (B x).length) → l.flatMap A = l.flatMap B →
    ∀ x ∈ l, A x = B x
  | [], _, _, _, hx => by cases hx
  | a :: l, hl, h, x, hx => by
    rw [List.flatMap_cons, List.flatMap_cons] at h
    obtain ⟨h1, h2⟩ := List.append_inj h (hl a (by simp))
    rcases List.mem_cons.mp hx with rfl | hx
    · exact h1
    · exact flatMap_parts (fun y hy => hl y (by simp [hy])) h2 x hx

/-- The cells of a row made of parts. -/
theorem cells_flat {α : Type} (N : α → List String) (V : α → List Val) (l : List α) (pass : List String) (vs : List Val)
    (hl : ∀ x ∈ l, (N x).length = (V x).length) (hn : (l.flatMap N ++ pass).Nodup) (hp : pass.length = vs.length) :
    (∀ x ∈ l, (N x).map (Row.ofList ((l.flatMap N ++ pass).zip (l.flatMap V ++ vs))) = V x) ∧
      pass.map (Row.ofList ((l.flatMap N ++ pass).zip (l.flatMap V ++ vs))) = vs := by
  have hlen : (l.flatMap N).length = (l.flatMap V).length := by
    rw [List.length_flatMap, List.length_flatMap]
    congr 1
    exact List.map_congr_left hl
  have h : (l.flatMap N ++ pass).map (Row.ofList ((l.flatMap N ++ pass).zip (l.flatMap V ++ vs))) = l.flatMap V ++ vs :=
    map_lookup_zip hn (by simp [hlen, hp])
  generalize Row.ofList ((l.flatMap N ++ pass).zip (l.flatMap V ++ vs)) = row at h ⊢
  rw [List.map_append, List.map_flatMap] at h
  obtain ⟨h1, h2⟩ := List.append_inj_right' h (by simp [hp]) |> fun h2 => (⟨List.append_inj_left' h (by simp [hp]), h2⟩ : _ ∧ _)
  exact ⟨flatMap_parts (fun x hx => by rw [List.length_map]; exact hl x hx) h1, h2⟩

theorem pick_map {ids : List Val} (g : Val → Val) {id : Val} (h : id ∈ ids) : pick ids (ids.map g) id = g id := by
  unfold pick
  induction ids with
  | nil => cases h
  | cons a l ih =>
    rw [List.map_cons, List.zip_cons_cons, List.lookup_cons]
    by_cases e : id = a
    · subst e; simp
    · have : (id == a) = false := by simpa using e
      rw [this]
      rcases List.mem_cons.mp h with h | h
      · exact absurd h e
      · exact ih h

/-- A pointwise transform. -/
theorem transformOf_meaning {w : World} {p : TransPrim} {g : Val → Val} (hp : ∀ t col, p.fn t [col] = [col.map g]) (name : String) (f : Feat) {id : Val}
    (h : id ∈ w.ids f.entity) : meaning w (transformOf p name f) id = [g (one (meaning w f) id)] := by
  show (p.fn w.time [(w.ids f.entity).map (one (meaning w f))]).map (fun col => pick (w.ids f.entity) col id) = _
  rw [hp, List.map_singleton, List.map_map, pick_map _ h]
  rfl

theorem equals_meaning (w : World) (l : Val) (name : String) (f : Feat) {id : Val} (h : id ∈ w.ids f.entity) :
    meaning w (transformOf (equalScalarPrim l) name f) id = [.bool (decide (one (meaning w f) id = l))] :=
  transformOf_meaning (g := fun v => .bool (decide (v = l))) (fun _ _ => rfl) name f h

theorem unknown_meaning (w : World) (ls : List Val) (name name' : String) (f : Feat) {id : Val} (h : id ∈ w.ids f.entity) :
    meaning w (transformOf notPrim name (transformOf (isInPrim ls) name' f)) id = [.bool (decide (one (meaning w f) id ∉ ls))] := by
  have h1 := transformOf_meaning (w := w) (p := isInPrim ls) (g := fun v => .bool (ls.contains v)) (fun _ _ => rfl) name' f h
  have h2 := transformOf_meaning (w := w) (p := notPrim) (g := fun v => match v with | .bool b => .bool (!b) | _ => .null) (fun _ _ => rfl) name
    (transformOf (isInPrim ls) name' f) (id := id) h
  rw [h2]
  have h3 : one (meaning w (transformOf (isInPrim ls) name' f)) id = .bool (ls.contains (one (meaning w f) id)) := by
    rw [one, h1]; rfl
  rw [h3]
  simp

/-- Every feature of the result comes from a given one. -/
def FromGiven (fs : List EFeat) : EOut → Prop
  | .keep f => f ∈ fs
  | .equals f _ => f ∈ fs
  | .unknown f _ => f ∈ fs

theorem addLabels_outs (o : EncOpts) (f : EFeat) : ∀ (ls : List Val) (s : EncState), (addLabels o f ls s).outs = s.outs ++ ls.map (.equals f)
  | [], s => by simp [addLabels]
  | l :: ls, s => by rw [addLabels, addLabels_outs o f ls]; simp

theorem encodeOne_outs {o : EncOpts} {s s' : EncState} {f : EFeat} (h : encodeOne o s f = .ok s') :
    ∃ os, s'.outs = s.outs ++ os ∧ ∀ e ∈ os, FromGiven [f] e := by
  unfold encodeOne at h
  split at h
  · cases h; exact ⟨[.keep f], rfl, by simp [FromGiven]⟩
  · split at h
    · cases h
    · simp only at h
      split at h
      · cases h
      · cases h
        rename_i n hn
        simp only
        unfold addUnknown
        split
        · refine ⟨_, by rw [addLabels_outs, List.append_assoc], ?_⟩
          intro e he
          rcases List.mem_append.mp he with he | he
          · obtain ⟨l, _, rfl⟩ := List.mem_map.mp he
            simp [FromGiven]
          · rw [List.mem_singleton.mp he]; simp [FromGiven]
        · refine ⟨_, addLabels_outs _ _ _ _, ?_⟩
          intro e he
          obtain ⟨l, _, rfl⟩ := List.mem_map.mp he
          simp [FromGiven]

theorem FromGiven.mono {fs gs : List EFeat} (h : ∀ f ∈ fs, f ∈ gs) {e : EOut} (he : FromGiven fs e) : FromGiven gs e := by
  cases e <;> exact h _ he

theorem encodeLoop_outs {o : EncOpts} : ∀ {fs : List EFeat} {s s' : EncState}, encodeLoop o s fs = .ok s' →
    ∃ os, s'.outs = s.outs ++ os ∧ ∀ e ∈ os, FromGiven fs e
  | [], s, s', h => by cases h; exact ⟨[], by simp, by simp⟩
  | f :: fs, s, s', h => by
    rw [encodeLoop] at h
    split at h
    · cases h
    · rename_i s1 h1
      obtain ⟨os, h2, h3⟩ := encodeOne_outs h1
      obtain ⟨os', h4, h5⟩ := encodeLoop_outs h
      refine ⟨os ++ os', by rw [h4, h2, List.append_assoc], ?_⟩
      intro e he
      rcases List.mem_append.mp he with he | he
      · exact (h3 e he).mono (by simp)
      · exact (h5 e he).mono (fun x hx => by simp [hx])

theorem encodeFeatures_outs {o : EncOpts} {inplace : Bool} {t t' left : Table} {fs : List EFeat} {outs : List EOut}
    (h : encodeFeatures o inplace t fs = .ok (t', outs, left)) : ∀ e ∈ outs, FromGiven fs e := by
  unfold encodeFeatures at h
  split at h
  · cases h
  · split at h
    · cases h
    · rename_i s hs
      split at h
      · cases h
      · cases h
        obtain ⟨os, h2, h3⟩ := encodeLoop_outs hs
        rw [h2]
        simpa using h3

/-- What the features of the result mean for a visible instance, next to what the given ones mean. -/
theorem encoded_rightCells {w : World} {e : String} {o : EncOpts} {isinName : String → List Val → String} {read : EFeat → Feat} {features : List Feat}
    {discrete : Feat → Bool} (hread : ∀ f ∈ features, read (encodeView discrete f) = f) (he : ∀ f ∈ features, f.entity = e) {id : Val} (hid : id ∈ w.ids e)
    {r r' : Row} (hr : ∀ f ∈ features, f.names.map r = meaning w f id)
    {x : EOut} (hx : FromGiven (features.map (encodeView discrete)) x)
    (hone : ∀ f, (∃ l, x = .equals f l) ∨ (∃ ls, x = .unknown f ls) → SingleOutput (read f))
    (hr' : (encodedFeature o.eqName isinName read x).names.map r' = meaning w (encodedFeature o.eqName isinName read x) id) :
    RightCells o r r' x := by
  cases x with
  | keep f =>
    obtain ⟨g, hg, rfl⟩ := List.mem_map.mp hx
    simp only [encodedFeature, hread g hg] at hr'
    rw [← hr g hg] at hr'
    exact fun c hc => List.map_inj_left.mp hr' c hc
  | equals f l =>
    obtain ⟨g, hg, rfl⟩ := List.mem_map.mp hx
    have h1 := hone _ (.inl ⟨l, rfl⟩)
    simp only [encodedFeature, hread g hg] at hr' h1
    rw [equals_meaning w l _ g (by rw [he g hg]; exact hid)] at hr'
    have h2 : r g.name = one (meaning w g) id := by
      rw [one, ← hr g hg, h1]; rfl
    simpa [RightCells, encodeView, h2, transformOf, Feat.names, Feat.info] using hr'
  | unknown f ls =>
    obtain ⟨g, hg, rfl⟩ := List.mem_map.mp hx
    have h1 := hone _ (.inr ⟨ls, rfl⟩)
    simp only [encodedFeature, hread g hg] at hr' h1
    rw [unknown_meaning w ls _ _ g (by rw [he g hg]; exact hid)] at hr'
    have h2 : r g.name = one (meaning w g) id := by
      rw [one, ← hr g hg, h1]; rfl
    simpa [RightCells, encodeView, h2, transformOf, Feat.names, Feat.info] using hr'

theorem encoded_names {o : EncOpts} {isinName : String → List Val → String} {read : EFeat → Feat} {features : List Feat}
    {discrete : Feat → Bool} (hread : ∀ f ∈ features, read (encodeView discrete f) = f) {x : EOut}
    (hx : FromGiven (features.map (encodeView discrete)) x) : (encodedFeature o.eqName isinName read x).names = outNames o x := by
  cases x with
  | keep f =>
    obtain ⟨g, hg, rfl⟩ := List.mem_map.mp hx
    simp only [encodedFeature, hread g hg]; rfl
  | equals f l => rfl
  | unknown f ls => rfl

theorem encoded_entity {eqName} {isinName : String → List Val → String} {read : EFeat → Feat} {features : List Feat} {e : String}
    {discrete : Feat → Bool} (hread : ∀ f ∈ features, read (encodeView discrete f) = f) (he : ∀ f ∈ features, f.entity = e) {x : EOut}
    (hx : FromGiven (features.map (encodeView discrete)) x) : (encodedFeature eqName isinName read x).entity = e := by
  cases x <;>
  · obtain ⟨g, hg, rfl⟩ := List.mem_map.mp hx
    simp only [encodedFeature, hread g hg]; exact he g hg

/-- A function of one cell makes a well formed transform. -/
theorem transformOf_wf {env : Env} {p : TransPrim} {g : Val → Val} (hp : ∀ t args, p.fn t args = [(args.headD []).map g]) (name : String) {f : Feat}
    (h : WellFormed env f) (h1 : SingleOutput f) (h2 : WholeFeature f) : WellFormed env (transformOf p name f) := by
  refine ⟨by simp [transformOf, Feat.names, Feat.info], by simp [transformOf, Feat.names, Feat.info], h.2.2.1, ?_⟩
  show _ ∧ _ ∧ _ ∧ _ ∧ _
  refine ⟨by simp [transformOf, Feat.bases], rfl, ?_, ?_, ?_⟩
  · intro d hd
    rw [show d = f from by simpa [transformOf, Feat.bases] using hd]
    exact ⟨rfl, h1, fun n hn => absurd hn (h2 n)⟩
  · intro t args n hne hl
    obtain ⟨a, l, rfl⟩ := List.exists_cons_of_ne_nil hne
    rw [hp]
    refine ⟨rfl, ?_⟩
    intro c hc
    rw [List.mem_singleton.mp hc, List.length_map]
    exact hl a (by simp)
  · intro _
    refine ⟨fun _ vs => [g (vs.headD .null)], ?_⟩
    intro t args n hne hl
    obtain ⟨a, l, rfl⟩ := List.exists_cons_of_ne_nil hne
    rw [hp]
    have ha : a.length = n := hl a (by simp)
    subst ha
    show [a.map g] = [(List.range a.length).map fun i => g (a.getD i .null)]
    congr 1
    apply List.ext_getElem (by simp)
    intro i h3 h4
    have h5 : i < a.length := by simpa using h3
    simp [h5]

theorem transformOf_uses {p : TransPrim} {name : String} {f g : Feat} (h : Needs (transformOf p name f) g) : g = transformOf p name f ∨ Needs f g := by
  rcases h with h | h
  · exact .inl h
  · right
    cases h with
    | direct hd =>
      left; simpa [transformOf, Feat.bases, Feat.wh] using hd
    | deep hd _ hu =>
      rename_i d _
      have : d = f := by simpa [transformOf, Feat.bases, Feat.wh] using hd
      subst this; exact .inr hu

/-- What is needed for the features of the result: they themselves, `isin` features, and what was needed before. -/
theorem encoded_needed {eqName} {isinName : String → List Val → String} {read : EFeat → Feat} {features : List Feat}
    {discrete : Feat → Bool} (hread : ∀ f ∈ features, read (encodeView discrete f) = f) {outs : List EOut}
    (hx : ∀ x ∈ outs, FromGiven (features.map (encodeView discrete)) x) {g : Feat} (h : NeededBy (outs.map (encodedFeature eqName isinName read)) g) :
    NeededBy features g ∨ ∃ f ∈ features, ∃ x ∈ outs,
      (∃ l, x = .equals (encodeView discrete f) l ∧ g = transformOf (equalScalarPrim l) (eqName f.name l) f) ∨
      (∃ ls, x = .unknown (encodeView discrete f) ls ∧ (g = transformOf (isInPrim ls) (isinName f.name ls) f ∨
        g = transformOf notPrim (f.name ++ " is unknown") (transformOf (isInPrim ls) (isinName f.name ls) f))) := by
  obtain ⟨y, hy, hn⟩ := h
  obtain ⟨x, hxo, rfl⟩ := List.mem_map.mp hy
  have hg := hx x hxo
  cases x with
  | keep v =>
    obtain ⟨f, hf, rfl⟩ := List.mem_map.mp hg
    simp only [encodedFeature, hread f hf] at hn
    exact .inl ⟨f, hf, hn⟩
  | equals v l =>
    obtain ⟨f, hf, rfl⟩ := List.mem_map.mp hg
    simp only [encodedFeature, hread f hf] at hn
    rcases transformOf_uses hn with hn | hn
    · exact .inr ⟨f, hf, _, hxo, .inl ⟨l, rfl, hn⟩⟩
    · exact .inl ⟨f, hf, hn⟩
  | unknown v ls =>
    obtain ⟨f, hf, rfl⟩ := List.mem_map.mp hg
    simp only [encodedFeature, hread f hf] at hn
    rcases transformOf_uses hn with hn | hn
    · exact .inr ⟨f, hf, _, hxo, .inr ⟨ls, rfl, .inr hn⟩⟩
    · rcases transformOf_uses hn with hn | hn
      · exact .inr ⟨f, hf, _, hxo, .inr ⟨ls, rfl, .inl hn⟩⟩
      · exact .inl ⟨f, hf, hn⟩

/-- A feature is only encoded if it has one column. -/
def OneColumn : EOut → Prop
  | .keep _ => True
  | .equals f _ => f.names.length ≤ 1
  | .unknown f _ => f.names.length ≤ 1

theorem encodeOne_single {o : EncOpts} {s s' : EncState} {f : EFeat} (h : encodeOne o s f = .ok s') (hs : ∀ x ∈ s.outs, OneColumn x) :
    ∀ x ∈ s'.outs, OneColumn x := by
  unfold encodeOne at h
  split at h
  · cases h
    intro x hx
    rcases List.mem_append.mp hx with hx | hx
    · exact hs x hx
    · rw [List.mem_singleton.mp hx]; trivial
  · rename_i hl
    have hl' : f.names.length ≤ 1 := by
      simp only [leftAsIs, Bool.or_eq_true, decide_eq_true_eq, not_or] at hl
      omega
    split at h
    · cases h
    · simp only at h
      split at h
      · cases h
      · cases h
        have h1 : ∀ ls, ∀ x ∈ (addLabels o f ls s).outs, OneColumn x := by
          intro ls x hx
          rw [addLabels_outs] at hx
          rcases List.mem_append.mp hx with hx | hx
          · exact hs x hx
          · obtain ⟨l, _, rfl⟩ := List.mem_map.mp hx
            exact hl'
        simp only
        unfold addUnknown
        split
        · intro x hx
          rcases List.mem_append.mp hx with hx | hx
          · exact h1 _ x hx
          · rw [List.mem_singleton.mp hx]; exact hl'
        · exact h1 _

theorem encodeFeatures_single {o : EncOpts} {inplace : Bool} {t t' left : Table} {fs : List EFeat} {outs : List EOut}
    (h : encodeFeatures o inplace t fs = .ok (t', outs, left)) : ∀ x ∈ outs, OneColumn x := by
  have loop : ∀ (fs : List EFeat) (s s' : EncState), encodeLoop o s fs = .ok s' → (∀ x ∈ s.outs, OneColumn x) → ∀ x ∈ s'.outs, OneColumn x := by
    intro fs
    induction fs with
    | nil => intro s s' h hs; cases h; exact hs
    | cons f fs ih =>
      intro s s' h hs
      rw [encodeLoop] at h
      split at h
      · cases h
      · rename_i s1 h1
        exact ih s1 s' h (encodeOne_single h1 hs)
  unfold encodeFeatures at h
  split at h
  · cases h
  · split at h
    · cases h
    · rename_i s hs
      split at h
      · cases h
      · cases h
        exact loop _ _ _ hs (by simp)

theorem rightCells_unique {o : EncOpts} {r a b : Row} {x : EOut} (ha : RightCells o r a x) (hb : RightCells o r b x) : ∀ c ∈ outNames o x, a c = b c := by
  cases x with
  | keep f => exact fun c hc => (ha c hc).trans (hb c hc).symm
  | equals f l => intro c hc; rw [List.mem_singleton.mp hc]; exact Eq.trans ha hb.symm
  | unknown f l => intro c hc; rw [List.mem_singleton.mp hc]; exact Eq.trans ha hb.symm

end FT
