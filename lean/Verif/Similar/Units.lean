import Verif.Similar.UnitsMember

/-!
C104: the analysis does not depend on the units.
-/

set_option linter.unusedSectionVars false
set_option linter.unusedSimpArgs false

namespace PyCBA

open Matrix Finset

variable {K : Type*} [Field K] [LinearOrder K] [IsStrictOrderedRing K]

/-! ### From the beam to the system -/

theorem mapE_map_arg {α β γ : Type*} (g : α → β) (F : β → Except PyErr γ) (l : List α) :
    mapE F (l.map g) = mapE (fun a => F (g a)) l := by
  induction l with
  | nil => rfl
  | cons a l ih => simp only [List.map_cons, mapE, ih]

theorem mapE_map_res {α β γ : Type*} (h : β → γ) (F : α → Except PyErr β) (F' : α → Except PyErr γ)
    (l : List α) (he : ∀ a ∈ l, F' a = (F a).map h) :
    mapE F' l = (mapE F l).map (List.map h) := by
  induction l with
  | nil => rfl
  | cons a l ih =>
    have h1 := he a List.mem_cons_self
    have h2 := ih fun x hx => he x (List.mem_cons_of_mem _ hx)
    simp only [mapE, h1, h2]
    cases F a with
    | error e => rfl
    | ok x =>
      simp only [Except.map]
      cases mapE F l with
      | error e => rfl
      | ok xs => rfl

/-- A load with its span in other units. -/
def SpanLoad.units (l f : K) (sl : SpanLoad K) : SpanLoad K := ⟨sl.iSpan, sl.load.units l f⟩

theorem parseRow_units (l f : K) (r : Row K) :
    parseRow (r.units l f) = (parseRow r).map (Option.map (SpanLoad.units l f)) := by
  obtain ⟨span, t, args⟩ := r
  by_cases h1 : t = 1
  · subst h1
    rcases args with _ | ⟨w, _⟩ <;> simp [parseRow, Row.units, Except.map, SpanLoad.units, Load.units]
  by_cases h2 : t = 2
  · subst h2
    rcases args with _ | ⟨w, _ | ⟨a, _⟩⟩ <;>
      simp [parseRow, Row.units, Except.map, SpanLoad.units, Load.units]
  by_cases h3 : t = 3
  · subst h3
    rcases args with _ | ⟨w, _ | ⟨a, _ | ⟨c, _⟩⟩⟩ <;>
      simp [parseRow, Row.units, Except.map, SpanLoad.units, Load.units]
  by_cases h4 : t = 4
  · subst h4
    rcases args with _ | ⟨w, _ | ⟨a, _⟩⟩ <;>
      simp [parseRow, Row.units, Except.map, SpanLoad.units, Load.units]
  by_cases h5 : t = 5
  · subst h5
    rcases args with _ | ⟨w, _ | ⟨a, _ | ⟨c, _ | ⟨d, _⟩⟩⟩⟩ <;>
      simp [parseRow, Row.units, Except.map, SpanLoad.units, Load.units]
  by_cases h6 : t = 6
  · subst h6
    simp [parseRow, Row.units, Except.map, SpanLoad.units, Load.units]
  · simp [parseRow, Row.units, h1, h2, h3, h4, h5, h6, Except.map]

theorem parseLM_units (l f : K) (rows : List (Row K)) :
    parseLM (rows.map (Row.units l f)) = (parseLM rows).map (List.map (SpanLoad.units l f)) := by
  induction rows with
  | nil => rfl
  | cons r rows ih =>
    simp only [List.map_cons, parseLM, parseRow_units, ih]
    cases parseRow r with
    | error e => rfl
    | ok o =>
      simp only [Except.map]
      cases parseLM rows with
      | error e => rfl
      | ok ls => cases o <;> rfl

theorem BeamDef.setLoads_units (l f : K) (b : BeamDef K) :
    (b.units l f).setLoads = b.setLoads.map (List.map (SpanLoad.units l f)) := by
  unfold BeamDef.setLoads
  simp only [BeamDef.units, parseLM_units, List.length_map]
  cases parseLM b.LM with
  | error e => rfl
  | ok ls =>
    simp only [Except.map, List.all_map]
    have : ∀ (P Q : SpanLoad K → Bool), P = Q →
        (if (ls.all P) = true then (Except.ok (ls.map (SpanLoad.units l f)) :
          Except PyErr (List (SpanLoad K))) else .error .indexError)
        = (if ls.all Q = true then Except.ok ls else .error .indexError).map
          (List.map (SpanLoad.units l f)) := by
      intro P Q h
      subst h
      split_ifs <;> rfl
    apply this
    funext s
    obtain ⟨i, ld⟩ := s
    cases ld <;> rfl

section

variable {l f : K} (hl : 0 < l) (hf : 0 < f)

include hl hf

theorem Member.refSum_units (m : Member K) (hm : m.Regular) (i : ℕ) (ls : List (SpanLoad K)) :
    (m.units l f).refSum i (ls.map (SpanLoad.units l f)) = (m.refSum i ls).map (CNL.units l f) := by
  induction ls with
  | nil => simp [Member.refSum, Except.map, CNL.units]
  | cons s ls ih =>
    simp only [List.map_cons, Member.refSum]
    by_cases h : s.iSpan = i
    · rw [if_pos (show (s.units l f).iSpan = i from h), if_pos h]
      change (match (m.units l f).ref (s.load.units l f) with
        | .error e => _
        | .ok c => _) = _
      rw [Member.ref_units hl hf m hm, ih]
      cases m.ref s.load with
      | error e => rfl
      | ok c =>
        cases m.refSum i ls with
        | error e => rfl
        | ok t =>
          simp only [Except.map, CNL.units]
          congr 2 <;> ring
    · rw [if_neg (show ¬ (s.units l f).iSpan = i from h), if_neg h, ih]

/-- What the two systems have to do with each other. -/
structure System.InUnits (l f : K) (s s' : System K) : Prop where
  n : s'.n = s.n
  kb : ∀ i < s.n, s'.kb i = matUnits l f (s.kb i)
  ref : ∀ i < s.n, s'.ref i = vecUnits l f (s.ref i)
  r : ∀ p < s.N, s'.r p = forceUnit l f p / dispUnit l p * s.r p
  presc : ∀ p < s.N, s'.presc p = (s.presc p).map (dispUnit l p * ·)

theorem BeamDef.system_units (b : BeamDef K) (hb : ∀ m ∈ b.members, m.Regular) (s : System K)
    (h : b.system = .ok s) :
    ∃ s', (b.units l f).system = .ok s' ∧ System.InUnits l f s s' := by
  unfold BeamDef.system at h
  cases hls : b.setLoads with
  | error e => simp [hls] at h
  | ok ls =>
    simp only [hls] at h
    cases hrefs : mapE (fun mi : Member K × ℕ => mi.1.refSum mi.2 ls) b.members.zipIdx with
    | error e => simp [hrefs] at h
    | ok refs =>
      simp only [hrefs] at h
      cases hks : mapE Member.spanK b.members with
      | error e => simp [hks] at h
      | ok ks =>
        simp only [hks] at h
        by_cases hlen : b.restraints.length < 2 * b.members.length + 2 ∨
            b.presc.length < 2 * b.members.length + 2
        · simp [hlen] at h
        rw [if_neg hlen] at h
        cases h
        have e1 : mapE (fun mi : Member K × ℕ => mi.1.refSum mi.2 (ls.map (SpanLoad.units l f)))
            (b.units l f).members.zipIdx = .ok (refs.map (CNL.units l f)) := by
          have : (b.units l f).members.zipIdx
              = b.members.zipIdx.map fun mi => (mi.1.units l f, mi.2) := by
            simp only [BeamDef.units, List.zipIdx_map]
            rfl
          rw [this, mapE_map_arg, mapE_map_res (CNL.units l f) (fun mi : Member K × ℕ =>
            mi.1.refSum mi.2 ls), hrefs]
          · rfl
          · intro mi hmi
            have := (List.mem_zipIdx hmi).2.2
            exact Member.refSum_units hl hf mi.1 (hb _ (by rw [this]; exact List.getElem_mem _))
              mi.2 ls
        have e2 : mapE Member.spanK (b.units l f).members = .ok (ks.map (matUnits l f)) := by
          simp only [BeamDef.units]
          rw [mapE_map_arg, mapE_map_res (matUnits l f) Member.spanK, hks]
          · rfl
          · intro m hm
            exact Member.spanK_units hl hf m (hb m hm).L.ne' (hb m hm).G
        have e0 : (b.units l f).setLoads = .ok (ls.map (SpanLoad.units l f)) := by
          rw [BeamDef.setLoads_units, hls]; rfl
        have hl1 := (mapE_ok hrefs).1
        have hl2 := (mapE_ok hks).1
        simp only [List.length_zipIdx] at hl1
        refine ⟨_, by
          unfold BeamDef.system
          simp only [e0, e1, e2]
          rw [if_neg (by simpa [BeamDef.units] using hlen)], ?_⟩
        refine ⟨by simp [BeamDef.units], fun i hi => ?_, fun i hi => ?_, fun p hp => ?_,
          fun p hp => ?_⟩
        · simp only at hi ⊢
          rw [List.getD_eq_getElem?_getD, List.getD_eq_getElem?_getD, List.getElem?_map,
            List.getElem?_eq_getElem (by omega)]
          rfl
        · simp only at hi ⊢
          rw [List.getD_eq_getElem?_getD, List.getD_eq_getElem?_getD, List.getElem?_map,
            List.getElem?_eq_getElem (by omega)]
          simp only [Option.map_some, Option.getD_some]
          ext a
          fin_cases a <;> simp [vecUnits, CNL.vec, CNL.units, forceUnit]
        · simp only [System.N] at hp ⊢
          push Not at hlen
          simp only [BeamDef.units]
          rw [List.getD_eq_getElem?_getD, List.getD_eq_getElem?_getD, List.getElem?_map,
            List.getElem?_zipIdx, List.getElem?_eq_getElem (by omega)]
          simp
        · simp only [System.N] at hp ⊢
          push Not at hlen
          simp only [BeamDef.units]
          rw [List.getD_eq_getElem?_getD, List.getD_eq_getElem?_getD, List.getElem?_map,
            List.getElem?_zipIdx, List.getElem?_eq_getElem (by omega)]
          simp

theorem dispUnit_pos (p : ℕ) : 0 < dispUnit l p := by
  unfold dispUnit; split_ifs <;> [exact hl; exact one_pos]

theorem forceUnit_pos (p : ℕ) : 0 < forceUnit l f p := by
  unfold forceUnit; split_ifs <;> positivity

omit hl hf in
theorem dispUnit_add (i p : ℕ) : dispUnit l (2 * i + p) = dispUnit l p := by
  unfold dispUnit; congr 1; simp [Nat.add_mod]

omit hl hf in
theorem forceUnit_add (i p : ℕ) : forceUnit l f (2 * i + p) = forceUnit l f p := by
  unfold forceUnit; congr 1; simp [Nat.add_mod]

theorem matUnits_mulVec (k : Mat4 K) (v : Vec4 K) :
    matUnits l f k *ᵥ dispVecUnits l v = vecUnits l f (k *ᵥ v) := by
  ext a
  simp only [Matrix.mulVec, dotProduct, vecUnits, matUnits, of_apply, dispVecUnits, Finset.mul_sum]
  apply Finset.sum_congr rfl
  intro c _
  have := (dispUnit_pos hl hf (c : ℕ)).ne'
  field_simp

omit hl hf in
theorem blockVec_units (i : ℕ) (v : Vec4 K) (p : ℕ) :
    blockVec (2 * i) (vecUnits l f v) p = forceUnit l f p * blockVec (2 * i) v p := by
  unfold blockVec
  by_cases h : 2 * i ≤ p ∧ p < 2 * i + 4
  · rw [dif_pos h, dif_pos h]
    simp only [vecUnits]
    congr 1
    have := forceUnit_add (l := l) (f := f) i (p - 2 * i)
    rw [← this]
    congr 1
    omega
  · rw [dif_neg h, dif_neg h, mul_zero]

theorem elemVec_units {s : System K} (d d' : ℕ → K) (hd : ∀ p < s.N, d' p = dispUnit l p * d p)
    (i : ℕ) (hi : i < s.n) : elemVec d' i = dispVecUnits l (elemVec d i) := by
  ext a
  simp only [elemVec, dispVecUnits]
  rw [hd _ (by simp only [System.N]; omega), dispUnit_add]

theorem System.InUnits.image {s s' : System K} (h : System.InUnits l f s s') :
    System.Image id (dispUnit l) (forceUnit l f) s s' := by
  have hN : s'.N = s.N := by simp [System.N, h.n]
  refine ⟨hN, fun p hp => hp, fun p _ => rfl, fun p => (dispUnit_pos hl hf p).ne',
    fun p => (forceUnit_pos hl hf p).ne', ?_, ?_⟩
  · intro d d' hd p hp
    simp only [id_eq] at hd ⊢
    simp only [System.residual]
    rw [s'.mulN_assemble _ _ (by rw [hN]; exact hp), s.mulN_assemble _ _ hp, System.forces_eq,
      System.forces_eq, h.n]
    have e1 : ∀ i ∈ range s.n, blockVec (2 * i) (s'.kb i *ᵥ elemVec d' i) p
        = forceUnit l f p * blockVec (2 * i) (s.kb i *ᵥ elemVec d i) p := by
      intro i hi
      have hi := Finset.mem_range.1 hi
      rw [h.kb i hi, elemVec_units hl hf d d' hd i hi, matUnits_mulVec hl hf, blockVec_units]
    have e2 : ∀ i ∈ range s.n, blockVec (2 * i) (s'.ref i) p
        = forceUnit l f p * blockVec (2 * i) (s.ref i) p := by
      intro i hi
      rw [h.ref i (Finset.mem_range.1 hi), blockVec_units]
    rw [Finset.sum_congr rfl e1, Finset.sum_congr rfl e2, ← Finset.mul_sum, ← Finset.mul_sum]
    have e3 : s'.spring p * d' p = forceUnit l f p * (s.spring p * d p) := by
      have h1 := dispUnit_pos hl hf p
      have h2 := forceUnit_pos hl hf p
      unfold System.spring
      rw [h.r p hp, hd p hp]
      have : 0 < forceUnit l f p / dispUnit l p * s.r p ↔ 0 < s.r p := by
        rw [mul_pos_iff_of_pos_left (div_pos h2 h1)]
      simp only [this]
      split_ifs
      · have := h1.ne'
        field_simp
      · ring
    rw [e3]
    ring
  · intro p hp
    have h1 := dispUnit_pos hl hf p
    have h2 := forceUnit_pos hl hf p
    unfold System.constr
    rw [h.r p hp, h.presc p hp]
    simp only [id_eq]
    cases s.presc p with
    | some v => rfl
    | none =>
      simp only [Option.map_none]
      have : forceUnit l f p / dispUnit l p * s.r p < 0 ↔ s.r p < 0 := by
        rw [← not_le, ← not_le, mul_nonneg_iff_of_pos_left (div_pos h2 h1)]
      simp only [this]
      split_ifs <;> simp

theorem System.InUnits.validate {s s' : System K} (h : System.InUnits l f s s') :
    s'.validate s'.forces = s.validate s.forces := by
  have hN : s'.N = s.N := by simp [System.N, h.n]
  unfold System.validate
  rw [hN, Bool.eq_iff_iff, List.all_eq_true, List.all_eq_true]
  have key : ∀ p ∈ List.range s.N, (0 < s'.r p ∧ (s'.presc p).isSome ∧ s'.forces p ≠ 0) ↔
      (0 < s.r p ∧ (s.presc p).isSome ∧ s.forces p ≠ 0) := by
    intro p hp
    have hp := List.mem_range.1 hp
    have h1 := dispUnit_pos hl hf p
    have h2 := forceUnit_pos hl hf p
    rw [h.r p hp, h.presc p hp, mul_pos_iff_of_pos_left (div_pos h2 h1)]
    have e : s'.forces p = forceUnit l f p * s.forces p := by
      rw [System.forces_eq, System.forces_eq, h.n]
      rw [mul_neg, Finset.mul_sum]
      congr 1
      apply Finset.sum_congr rfl
      intro i hi
      rw [h.ref i (Finset.mem_range.1 hi), blockVec_units]
    rw [e]
    simp [h2.ne']
  constructor
  · intro hh p hp
    have := hh p hp
    simp only [decide_eq_true_eq] at this ⊢
    rwa [key p hp] at this
  · intro hh p hp
    have := hh p hp
    simp only [decide_eq_true_eq] at this ⊢
    rwa [key p hp]

/-- **C104**, well-posedness: a beam that can be analysed can be analysed in all units. -/
theorem C104_completes (b : BeamDef K) (hb : ∀ m ∈ b.members, m.Regular) (s : System K)
    (h : b.system = .ok s) (hns : s.Nonsingular) (hv : s.validate s.forces = true) :
    ∃ s', (b.units l f).system = .ok s' ∧ s'.Nonsingular ∧ s'.validate s'.forces = true := by
  obtain ⟨s', h1, h2⟩ := BeamDef.system_units hl hf b hb s h
  exact ⟨s', h1, (h2.image hl hf).nonsingular hns, by rw [h2.validate hl hf, hv]⟩

/-- **C104**: the displacements, reactions and member end forces of a stable beam are the same
quantities in all units, whatever the solvers. -/
theorem C104_analysis (b : BeamDef K) (hb : ∀ m ∈ b.members, m.Regular)
    (stable stable' : System K → Bool) (solve solve' : Solver K) (hs : solve.Sound)
    (hs' : solve'.Sound) (res res' : Result K) (h : b.analyze stable solve = .ok res)
    (h' : (b.units l f).analyze stable' solve' = .ok res')
    (hns : ∀ s, b.system = .ok s → s.Nonsingular) :
    (∀ p < 2 * b.members.length + 2, res'.d p = dispUnit l p * res.d p) ∧
    (b.units l f).reported res' = (b.reported res).map (fun q => (q.1, forceUnit l f q.1 * q.2)) ∧
    ∀ i < b.members.length, ∀ a : Fin 4, res'.fmbr i a = forceUnit l f a * res.fmbr i a := by
  obtain ⟨s, h1, h2⟩ := BeamDef.analyze_ok h
  obtain ⟨s', h1', h2'⟩ := BeamDef.analyze_ok h'
  obtain ⟨t, ht, hu⟩ := BeamDef.system_units hl hf b hb s h1
  rw [h1'] at ht
  cases ht
  obtain ⟨a1, a2, a3, a4, _⟩ := System.analyze_ok hs h2
  obtain ⟨b1, b2, b3, b4, _⟩ := System.analyze_ok hs' h2'
  obtain ⟨hn, _, _, hr, _⟩ := BeamDef.system_ok h1
  obtain ⟨_, _, _, hr', _⟩ := BeamDef.system_ok h1'
  have hN : s.N = 2 * b.members.length + 2 := by simp [System.N, hn]
  have hN' : s'.N = s.N := by simp [System.N, hu.n]
  obtain ⟨c1, c2⟩ := (hu.image hl hf).results (hns s h1) a1 b1
  simp only [id_eq] at c1 c2
  have hd1 := dispUnit_pos hl hf
  have hd2 := forceUnit_pos hl hf
  have r1 : ∀ p < s.N, (s'.r p < 0 ↔ s.r p < 0) := by
    intro p hp
    rw [hu.r p hp, ← not_le, ← not_le, mul_nonneg_iff_of_pos_left (div_pos (hd2 p) (hd1 p))]
  have r2 : ∀ p < s.N, (0 < s'.r p ↔ 0 < s.r p) := by
    intro p hp
    rw [hu.r p hp, mul_pos_iff_of_pos_left (div_pos (hd2 p) (hd1 p))]
  have f1 : (List.range s.N).filter (fun i => decide (s'.r i < 0))
      = (List.range s.N).filter (fun i => decide (s.r i < 0)) :=
    List.filter_congr fun p hp => by simp only [r1 p (List.mem_range.1 hp)]
  have f2 : (List.range s.N).filter (fun i => decide (0 < s'.r i))
      = (List.range s.N).filter (fun i => decide (0 < s.r i)) :=
    List.filter_congr fun p hp => by simp only [r2 p (List.mem_range.1 hp)]
  have zipself : ∀ (l : List ℕ) (g : ℕ → K), l.zip (l.map g) = l.map fun p => (p, g p) := by
    intro l g
    induction l with
    | nil => rfl
    | cons a l ih => simp [ih]
  refine ⟨fun p hp => c1 p (by omega), ?_, ?_⟩
  · have q1 : (b.units l f).reported res'
        = ((List.range s.N).filter fun i => s'.r i < 0).map (fun p => (p, s'.residual res'.d p))
          ++ ((List.range s.N).filter fun i => 0 < s'.r i).map (fun p => (p, -s'.r p * res'.d p)) := by
      unfold BeamDef.reported
      have : 2 * (b.units l f).members.length + 2 = s.N := by simp [hN, BeamDef.units]
      rw [this, b2, b3, System.reactions, System.springForces, hN']
      simp only [← hr', zipself]
    have q2 : b.reported res
        = ((List.range s.N).filter fun i => s.r i < 0).map (fun p => (p, s.residual res.d p))
          ++ ((List.range s.N).filter fun i => 0 < s.r i).map (fun p => (p, -s.r p * res.d p)) := by
      unfold BeamDef.reported
      rw [← hN, a2, a3, System.reactions, System.springForces]
      simp only [← hr, zipself]
    rw [q1, q2, f1, f2, List.map_append, List.map_map, List.map_map]
    congr 1
    · apply List.map_congr_left
      intro p hp
      have hp := List.mem_range.1 (List.mem_filter.1 hp).1
      simp only [Function.comp]
      rw [c2 p hp]
    · apply List.map_congr_left
      intro p hp
      have hp := List.mem_range.1 (List.mem_filter.1 hp).1
      simp only [Function.comp]
      rw [c1 p hp, hu.r p hp]
      have := (hd1 p).ne'
      congr 1
      field_simp
  · intro i hi a
    have hi' : i < s.n := by omega
    rw [a4, b4]
    simp only [System.endForces]
    rw [hu.kb i hi', hu.ref i hi', elemVec_units hl hf res.d res'.d c1 i hi', matUnits_mulVec hl hf]
    simp only [Pi.add_apply, vecUnits]
    ring

end

end PyCBA
