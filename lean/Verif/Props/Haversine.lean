import Verif.Lemmas.Haversine
import Verif.Props.TransPrims
/-! # C67: Haversine is the distance on the sphere -/
namespace FT
open Spec

theorem zipWith4_length {α β : Type} (f : α → α → α → α → β) (as bs cs ds : List α) (n : Nat) (ha : as.length = n)
    (hb : bs.length = n) (hc : cs.length = n) (hd : ds.length = n) : (zipWith4 f as bs cs ds).length = n := by
  induction n generalizing as bs cs ds with
  | zero => cases as <;> simp_all [zipWith4]
  | succ n ih =>
    cases as <;> cases bs <;> cases cs <;> cases ds <;> simp at ha hb hc hd
    simp [zipWith4, ih _ _ _ _ ha hb hc hd]

theorem zipWith4_at {α β : Type} (f : α → α → α → α → β) (as bs cs ds : List α) (i : Nat) (a b c d : α) (ha : as[i]? = some a)
    (hb : bs[i]? = some b) (hc : cs[i]? = some c) (hd : ds[i]? = some d) : (zipWith4 f as bs cs ds)[i]? = some (f a b c d) := by
  induction i generalizing as bs cs ds with
  | zero =>
    cases as <;> cases bs <;> cases cs <;> cases ds <;> simp at ha hb hc hd
    subst ha hb hc hd
    rfl
  | succ i ih =>
    cases as <;> cases bs <;> cases cs <;> cases ds <;> simp at ha hb hc hd
    simpa [zipWith4] using ih _ _ _ _ ha hb hc hd

theorem zipWith4_swap {α β : Type} (f g : α → α → α → α → β) (h : ∀ a b c d, f a b c d = g c d a b) (as bs cs ds : List α) :
    zipWith4 f as bs cs ds = zipWith4 g cs ds as bs := by
  induction as generalizing bs cs ds with
  | nil => cases cs <;> cases ds <;> simp [zipWith4]
  | cons a as ih =>
    cases bs <;> cases cs <;> cases ds <;> simp [zipWith4]
    exact ⟨h _ _ _ _, ih _ _ _⟩

theorem haversineUnit_ok (unit : String) (r : ℝ) (h : earthRadius unit = some r) :
    haversineUnit unit = .ok unit ∧ (if unit = "kilometers" then (6371.0088 : ℝ) else 3958.7613) = r := by
  unfold earthRadius at h
  split at h
  · cases h; exact ⟨by decide, if_neg (by decide)⟩
  · cases h; exact ⟨by decide, if_pos rfl⟩
  · cases h

/-- C67: the unit must be miles or kilometers; another one raises `ValueError`. -/
theorem C67_unit (unit : String) (as bs : List (Option Int × LatLong)) :
    (haversineUnit unit = .error .valueError ∧ haversine unit as bs = .error .valueError) ↔ earthRadius unit = none := by
  constructor
  · intro h
    cases hr : earthRadius unit with
    | none => rfl
    | some r => rw [(haversineUnit_ok unit r hr).1] at h; cases h.1
  · intro h
    have e : haversineUnit unit = .error .valueError := by
      unfold haversineUnit
      rw [if_pos]
      intro hm
      rcases List.mem_cons.mp hm with rfl | hm
      · simp [earthRadius] at h
      · rcases List.mem_cons.mp hm with rfl | hm
        · simp [earthRadius] at h
        · cases hm
    exact ⟨e, by unfold haversine; rw [e]; rfl⟩

example : earthRadius "feet" = none := rfl

/-- C67: the distance of two positions is the length of the shortest way over a sphere with the mean radius of the earth; it is
missing where a coordinate is missing. The rows whose pair is a single missing value must be labelled with numbers from 0 up to
the number of rows.
Partial: for other labels `TypeError` is raised (`C67_error`). -/
theorem C67_distance_partial (unit : String) (radius : ℝ) (hr : earthRadius unit = some radius) (as bs : List (Option Int × LatLong))
    (hlen : as.length = bs.length)
    (labels : ∀ row ∈ as ++ bs, row.2 = .nan → ∃ i : Int, row.1 = some i ∧ 0 ≤ i ∧ i < as.length) :
    ∃ out, haversine unit as bs = .ok out ∧ out.length = as.length ∧
      ∀ (i : Nat) (l l' : Option Int) (a b : LatLong), as[i]? = some (l, a) → bs[i]? = some (l', b) →
        (∀ lat1 lon1 lat2 lon2, a = .pair (some lat1) (some lon1) → b = .pair (some lat2) (some lon2) →
          out[i]? = some (some (greatCircle radius (onSphere lat1 lon1) (onSphere lat2 lon2)))) ∧
        ((¬ ∃ lat1 lon1 lat2 lon2, a = .pair (some lat1) (some lon1) ∧ b = .pair (some lat2) (some lon2)) → out[i]? = some none) := by
  obtain ⟨hu, hrad⟩ := haversineUnit_ok unit radius hr
  have hla : ∀ row ∈ as, row.2 = .nan → ∃ i : Int, row.1 = some i ∧ 0 ≤ i ∧ i < as.length :=
    fun row hm => labels row (List.mem_append_left _ hm)
  have hlb : ∀ row ∈ bs, row.2 = .nan → ∃ i : Int, row.1 = some i ∧ 0 ≤ i ∧ i < bs.length :=
    fun row hm => hlen ▸ labels row (List.mem_append_right _ hm)
  obtain ⟨lat1s, e1, n1, v1⟩ := (coordinate (fun a _ => a) rfl as).2 hla
  obtain ⟨lon1s, e2, n2, v2⟩ := (coordinate (fun _ b => b) rfl as).2 hla
  obtain ⟨lat2s, e3, n3, v3⟩ := (coordinate (fun a _ => a) rfl bs).2 hlb
  obtain ⟨lon2s, e4, n4, v4⟩ := (coordinate (fun _ b => b) rfl bs).2 hlb
  refine ⟨zipWith4 (haversineCell unit) lat1s lon1s lat2s lon2s, ?_, ?_, ?_⟩
  · unfold haversine
    simp only [hu, e1, e2, e3, e4, bind, Except.bind, pure, Except.pure]
  · exact zipWith4_length _ _ _ _ _ _ n1 n2 (n3.trans hlen.symm) (n4.trans hlen.symm)
  · intro i l l' a b ha hb
    constructor
    · rintro lat1 lon1 lat2 lon2 rfl rfl
      rw [zipWith4_at _ _ _ _ _ i _ _ _ _ ((v1 i l _ ha).2 _ _ rfl) ((v2 i l _ ha).2 _ _ rfl) ((v3 i l' _ hb).2 _ _ rfl)
        ((v4 i l' _ hb).2 _ _ rfl)]
      simp only [haversineCell]
      rw [haversineOf_eq, hrad]
    · intro hno
      have part : ∀ (rows : List (Option Int × LatLong)) (lats lons : NumSeries) (label : Option Int) (c : LatLong),
          rows[i]? = some (label, c) →
          (∀ (i : Nat) (label : Option Int) (cell : LatLong), rows[i]? = some (label, cell) →
            (cell = .nan → lats[i]? = some none) ∧ ∀ a b, cell = .pair a b → lats[i]? = some a) →
          (∀ (i : Nat) (label : Option Int) (cell : LatLong), rows[i]? = some (label, cell) →
            (cell = .nan → lons[i]? = some none) ∧ ∀ a b, cell = .pair a b → lons[i]? = some b) →
          ∃ x y, lats[i]? = some x ∧ lons[i]? = some y ∧
            ∀ la lo, x = some la → y = some lo → c = .pair (some la) (some lo) := by
        intro rows lats lons label c hc hx hy
        cases c with
        | nan => exact ⟨none, none, (hx i label _ hc).1 rfl, (hy i label _ hc).1 rfl, fun _ _ h _ => by cases h⟩
        | pair p q => exact ⟨p, q, (hx i label _ hc).2 p q rfl, (hy i label _ hc).2 p q rfl, fun la lo h h' => by rw [h, h']⟩
      obtain ⟨x1, y1, hx1, hy1, f1⟩ := part as lat1s lon1s l a ha v1 v2
      obtain ⟨x2, y2, hx2, hy2, f2⟩ := part bs lat2s lon2s l' b hb v3 v4
      rw [zipWith4_at _ _ _ _ _ i _ _ _ _ hx1 hy1 hx2 hy2]
      cases x1 with
      | none => rfl
      | some x1 =>
        cases y1 with
        | none => rfl
        | some y1 =>
          cases x2 with
          | none => rfl
          | some x2 =>
            cases y2 with
            | none => rfl
            | some y2 => exact absurd ⟨_, _, _, _, f1 _ _ rfl rfl, f2 _ _ rfl rfl⟩ hno

/-- Two columns of two rows, one pair of which is missing. -/
example : let as : List (Option Int × LatLong) := [(some 0, .pair (some 42) (some (-71))), (some 1, .nan)]
    let bs : List (Option Int × LatLong) := [(some 0, .pair (some 40) (some (-122))), (some 1, .pair (some 41) none)]
    as.length = bs.length ∧ ∀ row ∈ as ++ bs, row.2 = .nan → ∃ i : Int, row.1 = some i ∧ 0 ≤ i ∧ i < as.length := by
  refine ⟨rfl, ?_⟩
  intro row hr hn
  simp only [List.cons_append, List.nil_append, List.mem_cons, List.not_mem_nil, or_false] at hr
  rcases hr with rfl | rfl | rfl | rfl
  · cases hn
  · exact ⟨1, rfl, by decide, by decide⟩
  · cases hn
  · cases hn

/-- C67: a missing pair in a row labelled otherwise raises `TypeError`. -/
theorem C67_error (unit : String) (radius : ℝ) (hr : earthRadius unit = some radius) (as bs : List (Option Int × LatLong))
    (hlen : as.length = bs.length)
    (h : ∃ row ∈ as ++ bs, row.2 = .nan ∧ ¬ ∃ i : Int, row.1 = some i ∧ 0 ≤ i ∧ i < as.length) :
    haversine unit as bs = .error .typeError := by
  obtain ⟨hu, _⟩ := haversineUnit_ok unit radius hr
  unfold haversine
  simp only [hu, bind, Except.bind, pure, Except.pure]
  by_cases ha : ∃ row ∈ as, row.2 = .nan ∧ ¬ ∃ i : Int, row.1 = some i ∧ 0 ≤ i ∧ i < as.length
  · rw [(coordinate (fun a _ => a) rfl as).1 ha]
  · have ha' : ∀ row ∈ as, row.2 = .nan → ∃ i : Int, row.1 = some i ∧ 0 ≤ i ∧ i < as.length := by
      intro row hm hn
      by_contra hc
      exact ha ⟨row, hm, hn, hc⟩
    obtain ⟨lat1s, e1, _⟩ := (coordinate (fun a _ => a) rfl as).2 ha'
    obtain ⟨lon1s, e2, _⟩ := (coordinate (fun _ b => b) rfl as).2 ha'
    have hb : ∃ row ∈ bs, row.2 = .nan ∧ ¬ ∃ i : Int, row.1 = some i ∧ 0 ≤ i ∧ i < bs.length := by
      obtain ⟨row, hm, hn, hc⟩ := h
      rcases List.mem_append.mp hm with hm | hm
      · exact absurd ⟨row, hm, hn, hc⟩ ha
      · exact ⟨row, hm, hn, hlen ▸ hc⟩
    rw [e1, e2, (coordinate (fun a _ => a) rfl bs).1 hb]

/-- C67: so the same coordinates in rows labelled 1 and 2 raise `TypeError`. -/
theorem C67_labels_violated :
    (∃ out, haversine "miles" [(some 0, .pair (some 42) (some (-71))), (some 1, .nan)]
      [(some 0, .pair (some 42) (some (-71))), (some 1, .nan)] = .ok out) ∧
    haversine "miles" [(some 1, .pair (some 42) (some (-71))), (some 2, .nan)]
      [(some 1, .pair (some 42) (some (-71))), (some 2, .nan)] = .error .typeError := by
  constructor
  · obtain ⟨out, h, _⟩ := C67_distance_partial "miles" _ rfl [(some 0, .pair (some 42) (some (-71))), (some 1, .nan)]
      [(some 0, .pair (some 42) (some (-71))), (some 1, .nan)] rfl (by
        intro row hr hn
        simp only [List.cons_append, List.nil_append, List.mem_cons, List.not_mem_nil, or_false] at hr
        rcases hr with rfl | rfl | rfl | rfl
        · cases hn
        · exact ⟨1, rfl, by decide, by decide⟩
        · cases hn
        · exact ⟨1, rfl, by decide, by decide⟩)
    exact ⟨out, h⟩
  · refine C67_error "miles" _ rfl _ _ rfl ⟨(some 2, .nan), by simp, rfl, ?_⟩
    rintro ⟨i, hi, _, h2⟩
    cases hi
    revert h2
    decide

/-- C67: the distance does not depend on the order of the two columns, as the flag `commutative` claims; neither do errors. -/
theorem C67_symmetric (unit : String) (as bs : List (Option Int × LatLong)) : haversine unit as bs = haversine unit bs as := by
  unfold haversine
  cases haversineUnit unit with
  | error e => rfl
  | ok u =>
    simp only [bind, Except.bind, pure, Except.pure]
    generalize (if hasNans as = true then replaceLatLongNan as else as) = as'
    generalize (if hasNans bs = true then replaceLatLongNan bs else bs) = bs'
    have cell' : ∀ a b c d, haversineCell u a b c d = haversineCell u c d a b := by
      intro a b c d
      cases a <;> cases b <;> cases c <;> cases d <;> simp only [haversineCell]
      rw [haversineOf_eq, haversineOf_eq]
      unfold greatCircle
      rw [InnerProductGeometry.angle_comm]
    rcases latLongParts_ok (fun a _ => a) as' with ⟨hn, e1⟩ | ⟨hn, o1, e1, _⟩ <;>
      rcases latLongParts_ok (fun _ b => b) as' with ⟨hm, e2⟩ | ⟨hm, o2, e2, _⟩ <;>
      rcases latLongParts_ok (fun a _ => a) bs' with ⟨hk, e3⟩ | ⟨hk, o3, e3, _⟩ <;>
      rcases latLongParts_ok (fun _ b => b) bs' with ⟨hj, e4⟩ | ⟨hj, o4, e4, _⟩ <;>
      simp only [e1, e2, e3, e4]
    rw [zipWith4_swap _ _ cell']

/-- C67: distances are those of a metric on the sphere: not negative, at most half the circumference, zero exactly for equal
points, and a detour is never shorter. -/
theorem C67_metric (unit : String) (radius : ℝ) (hr : earthRadius unit = some radius) (as bs cs : List (Option Int × LatLong))
    (ab bc ac : List (Option ℝ)) (hab : haversine unit as bs = .ok ab) (hbc : haversine unit bs cs = .ok bc)
    (hac : haversine unit as cs = .ok ac) (i : Nat) (la lb lc : Option Int) (lat1 lon1 lat2 lon2 lat3 lon3 : Rat)
    (hlen : as.length = bs.length ∧ bs.length = cs.length)
    (ha : as[i]? = some (la, .pair (some lat1) (some lon1))) (hb : bs[i]? = some (lb, .pair (some lat2) (some lon2)))
    (hc : cs[i]? = some (lc, .pair (some lat3) (some lon3))) :
    ∃ x y z : ℝ, ab[i]? = some (some x) ∧ bc[i]? = some (some y) ∧ ac[i]? = some (some z) ∧
      0 ≤ x ∧ x ≤ Real.pi * radius ∧ (x = 0 ↔ onSphere lat1 lon1 = onSphere lat2 lon2) ∧ z ≤ x + y := by
  have pos : 0 < radius := by
    unfold earthRadius at hr
    split at hr <;> cases hr <;> norm_num
  have value : ∀ (as bs : List (Option Int × LatLong)) (out : List (Option ℝ)), as.length = bs.length → haversine unit as bs = .ok out →
      ∀ (l l' : Option Int) (lat1 lon1 lat2 lon2 : Rat), as[i]? = some (l, .pair (some lat1) (some lon1)) →
        bs[i]? = some (l', .pair (some lat2) (some lon2)) →
        out[i]? = some (some (greatCircle radius (onSphere lat1 lon1) (onSphere lat2 lon2))) := by
    intro as bs out hlen h l l' p q r s ha hb
    by_cases labels : ∀ row ∈ as ++ bs, row.2 = .nan → ∃ i : Int, row.1 = some i ∧ 0 ≤ i ∧ i < as.length
    · obtain ⟨out', ho, _, hv⟩ := C67_distance_partial unit radius hr as bs hlen labels
      rw [h] at ho
      cases ho
      exact (hv i l l' _ _ ha hb).1 _ _ _ _ rfl rfl
    · exfalso
      push Not at labels
      obtain ⟨row, hm, hn, hno⟩ := labels
      have := C67_error unit radius hr as bs hlen ⟨row, hm, hn, by
        rintro ⟨k, hk, h0, h1⟩
        exact absurd h1 (not_lt.mpr (hno k hk h0))⟩
      rw [this] at h
      cases h
  refine ⟨_, _, _, value as bs ab hlen.1 hab la lb _ _ _ _ ha hb, value bs cs bc hlen.2 hbc lb lc _ _ _ _ hb hc,
    value as cs ac (hlen.1.trans hlen.2) hac la lc _ _ _ _ ha hc, ?_, ?_, ?_, ?_⟩
  · exact mul_nonneg pos.le (InnerProductGeometry.angle_nonneg _ _)
  · unfold greatCircle
    rw [mul_comm]
    exact mul_le_mul_of_nonneg_right (InnerProductGeometry.angle_le_pi _ _) pos.le
  · unfold greatCircle
    rw [mul_eq_zero, or_iff_right pos.ne']
    rw [InnerProductGeometry.angle_eq_zero_iff]
    constructor
    · rintro ⟨_, r, hr0, h⟩
      have h1 := congrArg norm h
      rw [norm_smul, onSphere_norm, onSphere_norm, Real.norm_eq_abs, abs_of_pos hr0, mul_one] at h1
      rw [h, ← h1, one_smul]
    · intro h
      exact ⟨onSphere_ne _ _, 1, one_pos, by rw [one_smul, h]⟩
  · unfold greatCircle
    rw [← mul_add]
    exact mul_le_mul_of_nonneg_left (InnerProductGeometry.angle_le_angle_add_angle _ _ _) pos.le

/-- Three columns with the coordinates of the docstring. -/
example : ∃ ab, haversine "miles" [(some 0, .pair (some (424 / 10)) (some (-711 / 10)))] [(some 0, .pair (some 40) (some (-1224 / 10)))] = .ok ab ∧
    ∃ x, ab[0]? = some (some x) := by
  obtain ⟨out, h, _, hv⟩ := C67_distance_partial "miles" _ rfl [(some 0, .pair (some (424 / 10)) (some (-711 / 10)))]
    [(some 0, .pair (some 40) (some (-1224 / 10)))] rfl (by
      intro row hr hn
      simp only [List.cons_append, List.nil_append, List.mem_cons, List.not_mem_nil, or_false] at hr
      rcases hr with rfl | rfl <;> cases hn)
  exact ⟨out, h, _, (hv 0 _ _ _ _ rfl rfl).1 _ _ _ _ rfl rfl⟩

/-- C67: the name says in which unit the distance is: miles unless another unit is written. -/
theorem C67_name (bases : List String) (unit unit' : String) (h : haversineName unit bases = haversineName unit' bases) :
    unit = unit' := by
  unfold haversineName at h
  have h1 := congrArg String.toList h
  simp only [String.toList_append, List.append_assoc, List.append_cancel_left_eq] at h1
  have h2 := List.append_cancel_right h1
  by_cases e1 : unit = "miles" <;> by_cases e2 : unit' = "miles"
  · rw [e1, e2]
  · simp [e1, e2] at h2
  · simp [e1, e2] at h2
  · simp only [ne_eq, e1, not_false_eq_true, if_true, e2, String.toList_append, List.append_cancel_left_eq] at h2
    exact String.toList_inj.mp h2

example : haversineName "miles" ["a", "b"] = "HAVERSINE(a, b)" ∧
    haversineName "kilometers" ["a", "b"] = "HAVERSINE(a, b, unit=kilometers)" := by decide +kernel

end FT
