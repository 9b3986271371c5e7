import Verif.Foundation.Hold
import Verif.Exact.Converge

/-!
C114: the deflected shape `deflection_curve`, for beams with any mix of foundation members and
other members.
-/

set_option linter.unusedSectionVars false
set_option linter.unusedSimpArgs false

namespace PyCBA

open Matrix Finset

/-! ### Model -/

/-- The arrays of a `MemberResults` as a list of stations. -/
def MRes.stations {K : Type*} (r : MRes K) : List (FStn K) :=
  (List.range r.n).map fun k => ⟨r.x k, r.M k, r.V k, r.R k, r.D k⟩

/-- `BeamResults._member_values`, `results.py` 150-294, for any member: a foundation member
(176-186) recovers its stations from the super-element and ignores its shear points. -/
noncomputable def FBeam.stationsOf (b : FBeam) (inv : Inverter ℝ) (ls : List (SpanLoad ℝ))
    (res : Result ℝ) (npts : ℕ) (sp : ℕ → List ℝ) (m : Member ℝ) (i : ℕ) :
    Except PyErr (List (FStn ℝ)) :=
  match b.kfAt i with
  | none => match m.values i ls (res.fmbr i) (elemVec res.d i) npts (sp i) with
    | .error e => .error e
    | .ok r => .ok r.stations
  | some k => match spanFoundation inv m k with
    | .error e => .error e
    | .ok E => E.recover (elemVec res.d i) (ownLoads i ls) npts

/-- `BeamResults._member_analysis`, `results.py` 133-148, for any members: the stations of
every member, moved to its place in the beam. -/
noncomputable def FBeam.memberStations (b : FBeam) (inv : Inverter ℝ) (res : Result ℝ) (npts : ℕ)
    (sp : ℕ → List ℝ) : Except PyErr (List (List (FStn ℝ))) :=
  match b.setLoads with
  | .error e => .error e
  | .ok ls => mapE (fun mi : Member ℝ × ℕ =>
      match b.stationsOf inv ls res npts sp mi.1 mi.2 with
      | .error e => .error e
      | .ok l => .ok (l.map fun s =>
          { s with x := s.x + ((b.members.take mi.2).map Member.L).sum })) b.members.zipIdx

/-- `x[1:-1]`. -/
def inner {α : Type*} (l : List α) : List α := l.tail.dropLast

/-- `BeamResults.deflection_curve`, `results.py` 325-343. -/
def deflectionCurve {K : Type*} (vs : List (List (FStn K))) : List (K × K) :=
  vs.flatMap fun l => (inner l).map fun s => (s.x, s.D)

/-! ### Lemmas -/

theorem inner_map {α β : Type*} (f : α → β) (l : List α) : inner (l.map f) = (inner l).map f := by
  simp [inner, List.map_dropLast, List.map_tail]

theorem inner_range (n : ℕ) : inner (List.range n) = (List.range (n - 2)).map (· + 1) := by
  rcases n with _ | _ | n
  · rfl
  · rfl
  · rw [inner, List.range_succ_eq_map, List.tail_cons, List.range_succ, List.map_append]
    simp

theorem FBeam.memberStations_ok {b : FBeam} {inv : Inverter ℝ} {res : Result ℝ} {npts : ℕ}
    {sp : ℕ → List ℝ} {vs : List (List (FStn ℝ))}
    (h : b.memberStations inv res npts sp = .ok vs) :
    vs.length = b.members.length ∧ ∃ ls, b.setLoads = .ok ls ∧
      ∀ i (hi : i < b.members.length) (hi' : i < vs.length), ∃ l,
        b.stationsOf inv ls res npts sp b.members[i] i = .ok l ∧
        vs[i] = l.map fun s => { s with x := s.x + b.nodeX i } := by
  unfold FBeam.memberStations at h
  split at h
  · cases h
  · rename_i ls hls
    obtain ⟨h1, h2⟩ := mapE_ok h
    simp only [List.length_zipIdx] at h1 h2
    refine ⟨h1, ls, hls, fun i hi hi' => ?_⟩
    have := h2 i hi hi'
    simp only [List.getElem_zipIdx, Nat.zero_add] at this
    split at this
    · cases this
    · rename_i l hl
      exact ⟨l, hl, (Except.ok.inj this).symm⟩

/-- What `stations` knows of a member of length `L` whose left node is displaced by `d`. -/
structure GoodStations (L d : ℝ) (l : List (FStn ℝ)) : Prop where
  sorted : (l.map FStn.x).Pairwise (· ≤ ·)
  first : ∃ s, (inner l).head? = some s ∧ s.x = 0 ∧ s.D = d
  last : ∃ s, (inner l).getLast? = some s ∧ s.x = L
  bounds : ∀ s ∈ l, 0 ≤ s.x ∧ s.x ≤ L

theorem inner_sublist {α : Type*} (l : List α) : (inner l).Sublist l :=
  (List.dropLast_sublist _).trans (List.tail_sublist _)

theorem MCtx.stations_good (c : MCtx ℝ) (hL : 0 < c.m.L) (hn : 0 < c.npts) :
    GoodStations c.m.L (c.d 0) c.result.stations ∧
    (inner c.result.stations).length = c.npts + 1 + 2 * (insidePoints c.m.L c.sp).length ∧
    ∀ k s t, (inner c.result.stations)[k]? = some s → (inner c.result.stations)[k + 1]? = some t →
      (s.x = t.x → s.D = t.D) ∧
      (c.m.GAv = none → t.D - s.D = (t.x - s.x) * (s.R + t.R) / 2) := by
  obtain ⟨x1, x2, x3, x4, x5, x6⟩ := c.x_spec hL hn
  have hin : inner c.result.stations = (List.range (c.n - 2)).map fun k =>
      (⟨c.x (k + 1), c.M (k + 1), c.V (k + 1), c.R (k + 1), c.D (k + 1)⟩ : FStn ℝ) := by
    rw [MRes.stations, inner_map, inner_range, List.map_map]
    rfl
  obtain ⟨N, hN⟩ : ∃ N, c.n = N + 4 := ⟨c.n - 4, by omega⟩
  refine ⟨⟨?_, ?_, ?_, ?_⟩, ?_, ?_⟩
  · rw [MRes.stations, List.map_map, List.pairwise_map, List.pairwise_iff_getElem]
    intro i j hi hj hij
    simp only [List.length_range, MCtx.result] at hi hj
    simp only [List.getElem_range, Function.comp_apply, MCtx.result]
    exact x6 _ _ hij.le hj
  · rw [hin, show c.n - 2 = (N + 1) + 1 by omega, List.range_succ_eq_map]
    refine ⟨_, by simp; rfl, ?_, ?_⟩
    · simp only
      exact x3
    · simp only [MCtx.D]
      rw [if_neg (by simp only [MCtx.IsEnd]; omega)]
      simp [MCtx.defl, cumTrap]
  · rw [hin, show c.n - 2 = (N + 1) + 1 by omega, List.range_succ]
    refine ⟨_, by simp; rfl, ?_⟩
    simp only
    rw [← x4]
    congr 1
    omega
  · intro s hs
    simp only [MRes.stations, MCtx.result, List.mem_map, List.mem_range] at hs
    obtain ⟨k, hk, rfl⟩ := hs
    simp only
    constructor
    · rw [← x2]
      exact x6 _ _ (Nat.zero_le _) hk
    · rw [← x5]
      exact x6 _ _ (by omega) (by omega)
  · rw [hin, List.length_map, List.length_range, x1]
    omega
  · intro k s t hs ht
    rw [hin, List.getElem?_map] at hs ht
    have hk : k + 1 < c.n - 2 := by
      by_contra hh
      rw [List.getElem?_eq_none (by simpa using hh)] at ht
      cases ht
    rw [List.getElem?_range (by omega)] at hs
    rw [List.getElem?_range hk] at ht
    simp only [Option.map_some, Option.some.injEq] at hs ht
    subst hs ht
    have e1 : ¬ c.IsEnd (k + 1) := by simp only [MCtx.IsEnd]; omega
    have e2 : ¬ c.IsEnd (k + 1 + 1) := by simp only [MCtx.IsEnd]; omega
    obtain ⟨g, -⟩ := c.h_eq hL hn k (by omega)
    have hD : c.D (k + 1 + 1) - c.D (k + 1)
        = (c.x (k + 1 + 1) - c.x (k + 1)) * (c.psi k + c.gamma k + (c.psi (k + 1) + c.gamma (k + 1))) / 2 := by
      simp only [MCtx.D, if_neg e1, if_neg e2, Nat.add_sub_cancel, MCtx.defl, cumTrap, g]
      ring
    constructor
    · intro hx
      simp only at hx ⊢
      rw [hx, sub_self, zero_mul, zero_div] at hD
      linarith
    · intro hG
      simp only
      rw [hD]
      simp only [MCtx.R, if_neg e1, if_neg e2, Nat.add_sub_cancel, MCtx.gamma, hG, add_zero]

theorem inner_head {α : Type*} (l : List α) (h : 3 ≤ l.length) : (inner l).head? = l[1]? := by
  rcases l with _ | ⟨a, _ | ⟨b, _ | ⟨c, l⟩⟩⟩
  · simp at h
  · simp at h
  · simp at h
  · simp [inner]

theorem inner_last {α : Type*} (l : List α) (h : 3 ≤ l.length) :
    (inner l).getLast? = l[l.length - 2]? := by
  rw [List.getLast?_eq_getElem?, inner, List.getElem?_dropLast]
  simp only [List.length_dropLast, List.length_tail]
  rw [if_pos (by omega), List.getElem?_tail]
  congr 1
  omega

/-- The stations of a foundation member. -/
theorem FoundEl.recover_good (E : FoundEl ℝ) (hn : 0 < E.n) (hL : 0 < E.L) (dr : Vec4 ℝ)
    (loads : List (Load ℝ)) (npts : ℕ) (out : List (FStn ℝ))
    (h : E.recover dr loads npts = .ok out) :
    (∃ refs, E.refs loads = .ok refs ∧ GoodStations E.L (E.mesh refs dr 0) out) ∧
      3 ≤ out.length := by
  have hh := E.h_pos hn hL
  unfold FoundEl.recover at h
  split at h
  · cases h
  rename_i per hper
  split at h
  · cases h
  rename_i refs hrefs
  cases h
  set q := E.nptsSub npts with hq
  have hq2 : 0 < q := lt_of_lt_of_le (by norm_num) (le_max_left _ _)
  let c : ℕ → MCtx ℝ := fun e =>
    pieceCtx E.EI E.h (E.pieceForces refs dr e) (elemVec (E.mesh refs dr) e) (per e) q
  have hp : ∀ e, E.pieceValues refs per dr q e
      = (c e).result.stations.map fun s => { s with x := s.x + (e : ℝ) * E.h } := by
    intro e
    simp only [FoundEl.pieceValues, MRes.stations, List.map_map, MCtx.result]
    rfl
  have hg : ∀ e, GoodStations E.h ((c e).d 0) (c e).result.stations ∧
      (c e).result.stations.length = q + 3 := by
    intro e
    refine ⟨((c e).stations_good hh hq2).1, ?_⟩
    simp only [MRes.stations, List.length_map, List.length_range, MCtx.result]
    have := ((c e).x_spec hh hq2).1
    rw [this]
    simp [c, pieceCtx, insidePoints]
  have hlen : ∀ e, (E.pieceValues refs per dr q e).length = q + 3 := fun e => by
    rw [hp, List.length_map, (hg e).2]
  have hb : ∀ e, ∀ s ∈ E.pieceValues refs per dr q e,
      (e : ℝ) * E.h ≤ s.x ∧ s.x ≤ ((e : ℝ) + 1) * E.h := by
    intro e s hs
    rw [hp] at hs
    obtain ⟨t, ht, rfl⟩ := List.mem_map.1 hs
    obtain ⟨b1, b2⟩ := (hg e).1.bounds t ht
    simp only
    constructor <;> linarith
  obtain ⟨N, hN⟩ : ∃ N, E.n = N + 1 := ⟨E.n - 1, by omega⟩
  have hcons : (List.range E.n).flatMap (E.pieceValues refs per dr q)
      = E.pieceValues refs per dr q 0
        ++ (List.range N).flatMap fun e => E.pieceValues refs per dr q (e + 1) := by
    rw [hN, List.range_succ_eq_map, List.flatMap_cons, List.flatMap_map]
  have hsnoc : (List.range E.n).flatMap (E.pieceValues refs per dr q)
      = (List.range N).flatMap (E.pieceValues refs per dr q) ++ E.pieceValues refs per dr q N := by
    rw [hN, List.range_succ, List.flatMap_append]
    simp
  have hl3 : 3 ≤ ((List.range E.n).flatMap (E.pieceValues refs per dr q)).length := by
    rw [hcons, List.length_append, hlen]
    omega
  refine ⟨⟨refs, hrefs, ?_, ?_, ?_, ?_⟩, hl3⟩
  · rw [List.pairwise_map, List.pairwise_flatMap]
    constructor
    · intro e _
      rw [hp, List.pairwise_map]
      have := (hg e).1.sorted
      rw [List.pairwise_map] at this
      exact this.imp fun h => by simpa using h
    · rw [List.pairwise_iff_getElem]
      intro i j hi hj hij s hs t ht
      simp only [List.getElem_range] at hs ht
      have h1 := (hb i s hs).2
      have h2 := (hb j t ht).1
      have : (i : ℝ) + 1 ≤ j := by exact_mod_cast hij
      nlinarith
  · obtain ⟨s, h1, h2, h3⟩ := (hg 0).1.first
    rw [inner_head _ (by rw [(hg 0).2]; omega)] at h1
    rw [inner_head _ hl3, hcons, List.getElem?_append_left (by rw [hlen]; omega), hp,
      List.getElem?_map, h1]
    refine ⟨_, rfl, ?_, ?_⟩
    · simpa using h2
    · simpa [c, pieceCtx, elemVec] using h3
  · obtain ⟨s, h1, h2⟩ := (hg N).1.last
    rw [inner_last _ (by rw [(hg N).2]; omega), (hg N).2] at h1
    rw [inner_last _ hl3, hsnoc, List.length_append, hlen,
      List.getElem?_append_right (by omega), hp, List.getElem?_map]
    rw [show ((List.range N).flatMap (E.pieceValues refs per dr q)).length + (q + 3) - 2
      - ((List.range N).flatMap (E.pieceValues refs per dr q)).length = q + 3 - 2 by omega, h1]
    refine ⟨_, rfl, ?_⟩
    simp only
    rw [h2, ← E.n_h hn, hN]
    push_cast
    ring
  · intro s hs
    rw [List.mem_flatMap] at hs
    obtain ⟨e, he, hs⟩ := hs
    obtain ⟨b1, b2⟩ := hb e s hs
    have he' : (e : ℝ) + 1 ≤ E.n := by exact_mod_cast List.mem_range.1 he
    constructor
    · have : (0 : ℝ) ≤ e * E.h := by positivity
      linarith
    · rw [← E.n_h hn]
      nlinarith

theorem FBeam.stationsOf_good (b : FBeam) (inv : Inverter ℝ) (ls : List (SpanLoad ℝ))
    (res : Result ℝ) (npts : ℕ) (hn : 0 < npts) (sp : ℕ → List ℝ) (m : Member ℝ) (hL : 0 < m.L)
    (i : ℕ) (l : List (FStn ℝ)) (h : b.stationsOf inv ls res npts sp m i = .ok l) :
    GoodStations m.L (res.d (2 * i)) l ∧
    (b.kfAt i = none →
      (inner l).length = npts + 1 + 2 * (insidePoints m.L (sp i)).length ∧
      ∀ k s t, (inner l)[k]? = some s → (inner l)[k + 1]? = some t →
        (s.x = t.x → s.D = t.D) ∧
        (m.GAv = none → t.D - s.D = (t.x - s.x) * (s.R + t.R) / 2)) := by
  unfold FBeam.stationsOf at h
  split at h
  · rename_i hk
    split at h
    · cases h
    rename_i r hr
    cases h
    unfold Member.values at hr
    split at hr
    · cases hr
    rename_i c hc
    cases hr
    obtain ⟨m1, m2, m3, m4, m5, m6, _⟩ := Member.ctx_ok hc
    obtain ⟨g1, g2, g3⟩ := c.stations_good (by rw [m1]; exact hL) (by rw [m5]; exact hn)
    rw [m1] at g1
    rw [m1, m5, m6] at g2
    rw [m1] at g3
    refine ⟨?_, fun _ => ⟨g2, g3⟩⟩
    have : c.d 0 = res.d (2 * i) := by rw [m4]; simp [elemVec]
    rw [← this]
    exact g1
  · rename_i k hk
    split at h
    · cases h
    rename_i E hE
    obtain ⟨e1, e2⟩ := spanFoundation_ok hE
    obtain ⟨-, -, -, e3, -⟩ := C64_scope inv m k E hE
    obtain ⟨⟨refs, -, g⟩, -⟩ := E.recover_good e1 (by rw [e3]; exact hL) _ _ _ _ h
    refine ⟨?_, fun hh => by rw [hk] at hh; cases hh⟩
    have : E.mesh refs (elemVec res.d i) 0 = res.d (2 * i) := by
      have := E.mesh_ret e1 refs (elemVec res.d i) 0
      simpa [Found.ret, elemVec] using this
    rw [e3, this] at g
    exact g

/-! ### C114 -/

/-- **C114**, `deflection_curve` of a beam with any mix of foundation members and other
members: the abscissae are nondecreasing; the part of each member starts at its left node with
the displacement of that node and ends at its right node.  Without foundation, the part of a
member has all its stations, once each, and no vertical line: points at the same abscissa have
the same deflection, and the deflections of a slender member rise between consecutive points
by the mean of the reported rotations.  Missing: foundation members, whose parts have vertical
lines (`C114_foundation_violation`). -/
theorem C114_curve_partial (b : FBeam) (hpos : ∀ m ∈ b.members, 0 < m.L) (inv : Inverter ℝ)
    (res : Result ℝ) (npts : ℕ) (hn : 0 < npts) (sp : ℕ → List ℝ) (vs : List (List (FStn ℝ)))
    (h : b.memberStations inv res npts sp = .ok vs) :
    ∃ parts : ℕ → List (FStn ℝ),
      deflectionCurve vs
        = (List.range b.members.length).flatMap (fun i => (parts i).map fun s => (s.x, s.D)) ∧
      (deflectionCurve vs).Pairwise (fun p q => p.1 ≤ q.1) ∧
      ∀ i (hi : i < b.members.length),
        (∃ s, (parts i).head? = some s ∧ s.x = b.nodeX i ∧ s.D = res.d (2 * i)) ∧
        (∃ s, (parts i).getLast? = some s ∧ s.x = b.nodeX (i + 1)) ∧
        (∃ hi' : i < vs.length, (parts i).Sublist vs[i]) ∧
        (b.kfAt i = none →
          (parts i).length = npts + 1 + 2 * (insidePoints b.members[i].L (sp i)).length ∧
          ∀ k s t, (parts i)[k]? = some s → (parts i)[k + 1]? = some t →
            (s.x = t.x → s.D = t.D) ∧
            (b.members[i].GAv = none → t.D - s.D = (t.x - s.x) * (s.R + t.R) / 2)) := by
  obtain ⟨hlen, ls, hls, hc⟩ := FBeam.memberStations_ok h
  have hmono := b.nodeX_mono hpos
  have hrange : vs = (List.range b.members.length).map fun i => vs.getD i [] := by
    apply List.ext_getElem
    · simp [hlen]
    · intro i h1 h2
      simp [h1]
  have hval : ∀ i (hi : i < b.members.length), ∃ l,
      vs.getD i [] = l.map (fun s => { s with x := s.x + b.nodeX i }) ∧
      GoodStations b.members[i].L (res.d (2 * i)) l ∧
      (b.kfAt i = none →
        (inner l).length = npts + 1 + 2 * (insidePoints b.members[i].L (sp i)).length ∧
        ∀ k s t, (inner l)[k]? = some s → (inner l)[k + 1]? = some t →
          (s.x = t.x → s.D = t.D) ∧
          (b.members[i].GAv = none → t.D - s.D = (t.x - s.x) * (s.R + t.R) / 2)) := by
    intro i hi
    obtain ⟨l, l1, l2⟩ := hc i hi (by omega)
    obtain ⟨g1, g2⟩ := b.stationsOf_good inv ls res npts hn sp _ (hpos _ (List.getElem_mem hi)) i l l1
    refine ⟨l, ?_, g1, g2⟩
    rw [List.getD_eq_getElem _ _ (by omega), l2]
  have hbd : ∀ i (hi : i < b.members.length), ∀ s ∈ inner (vs.getD i []),
      b.nodeX i ≤ s.x ∧ s.x ≤ b.nodeX (i + 1) := by
    intro i hi s hs
    obtain ⟨l, l1, g, -⟩ := hval i hi
    rw [l1] at hs
    obtain ⟨t, ht, rfl⟩ := List.mem_map.1 ((inner_sublist _).subset hs)
    obtain ⟨b1, b2⟩ := g.bounds t ht
    rw [b.nodeX_succ i hi]
    simp only
    constructor <;> linarith
  have hflat : deflectionCurve vs = (List.range b.members.length).flatMap
      (fun i => (inner (vs.getD i [])).map fun s => (s.x, s.D)) := by
    conv_lhs => rw [hrange, deflectionCurve]
    rw [List.flatMap_map]
  refine ⟨fun i => inner (vs.getD i []), hflat, ?_, ?_⟩
  · rw [hflat, List.pairwise_flatMap]
    constructor
    · intro i hi
      have hi' := List.mem_range.1 hi
      obtain ⟨l, l1, g, -⟩ := hval i hi'
      rw [List.pairwise_map]
      refine List.Pairwise.sublist (inner_sublist _) ?_
      rw [l1, List.pairwise_map]
      have := g.sorted
      rw [List.pairwise_map] at this
      exact this.imp fun h => by simpa using h
    · rw [List.pairwise_iff_getElem]
      intro i j hi hj hij p hp q hq
      simp only [List.length_range] at hi hj
      simp only [List.getElem_range, List.mem_map] at hp hq
      obtain ⟨s, hs, rfl⟩ := hp
      obtain ⟨t, ht, rfl⟩ := hq
      exact ((hbd i hi s hs).2.trans (hmono _ _ (by omega) (by omega))).trans (hbd j hj t ht).1
  · intro i hi
    obtain ⟨l, l1, g, g'⟩ := hval i hi
    simp only [l1, inner_map]
    refine ⟨?_, ?_, ⟨by omega, ?_⟩, ?_⟩
    · obtain ⟨s, h1, h2, h3⟩ := g.first
      exact ⟨{ s with x := s.x + b.nodeX i }, by rw [List.head?_map, h1]; rfl, by simp [h2], h3⟩
    · obtain ⟨s, h1, h2⟩ := g.last
      exact ⟨{ s with x := s.x + b.nodeX i }, by rw [List.getLast?_map, h1]; rfl, by
        simp only [h2]; rw [b.nodeX_succ i hi, add_comm]⟩
    · rw [← inner_map, ← l1, List.getD_eq_getElem _ _ (by omega)]
      exact inner_sublist _
    · intro hk
      obtain ⟨g1, g2⟩ := g' hk
      refine ⟨by rw [List.length_map, g1], ?_⟩
      intro k s t hs ht
      rw [List.getElem?_map] at hs ht
      cases hs' : (inner l)[k]? with
      | none => rw [hs'] at hs; cases hs
      | some s0 =>
        cases ht' : (inner l)[k + 1]? with
        | none => rw [ht'] at ht; cases ht
        | some t0 =>
          rw [hs'] at hs
          rw [ht'] at ht
          simp only [Option.map_some, Option.some.injEq] at hs ht
          obtain ⟨q1, q2⟩ := g2 k s0 t0 hs' ht'
          subst hs ht
          refine ⟨fun hx => q1 (by simpa using hx), fun hG => ?_⟩
          have := q2 hG
          simp only
          rw [this]
          ring

/-! ### The violation -/

/-- One span on a foundation, without supports, under a uniform load. -/
noncomputable def floatBeam (EI L k w : ℝ) : FBeam :=
  ⟨⟨[⟨.const EI, L, .FF, none⟩], [0, 0, 0, 0], [none, none, none, none], [⟨1, 1, [w]⟩]⟩, [some k]⟩

/-- In every analysis the span sinks as a whole, by the load over the modulus. -/
theorem floatBeam_solution (EI L k v : ℝ) (hEI : 0 < EI) (hL : 0 < L) (hk : 0 < k)
    (inv : Inverter ℝ) (hS : inv.Sound) (stable : System ℝ → Bool) (solve : Solver ℝ)
    (hs : solve.Sound) (res : Result ℝ)
    (h : (floatBeam EI L k (-(k * v))).analyze inv stable solve = .ok res) :
    elemVec res.d 0 = ![v, 0, v, 0] := by
  obtain ⟨s, h1, h2⟩ := FBeam.analyze_ok h
  obtain ⟨hn, hkb, ⟨ls, hls, href⟩, hr, hp, -, -⟩ := FBeam.system_ok h1
  have hls' : ls = [⟨0, .udl (-(k * v))⟩] := by
    have : (floatBeam EI L k (-(k * v))).setLoads = .ok [⟨0, .udl (-(k * v))⟩] := by
      simp [BeamDef.setLoads, floatBeam, parseLM, parseRow]
    rw [this] at hls
    exact (Except.ok.inj hls).symm
  have hn1 : s.n = 1 := hn
  have hk0 := hkb 0 (by simp [floatBeam])
  have hr0 := href 0 (by simp [floatBeam])
  have hkf : (floatBeam EI L k (-(k * v))).kfAt 0 = some k := rfl
  rw [hkf] at hk0 hr0
  change spanKf inv ⟨.const EI, L, .FF, none⟩ (some k) = _ at hk0
  change spanRef inv ⟨.const EI, L, .FF, none⟩ 0 ls (some k) = _ at hr0
  simp only [spanKf, spanRef] at hk0 hr0
  split at hk0
  · cases hk0
  rename_i E hE
  rw [hE] at hr0
  simp only at hr0
  obtain ⟨e1, e2⟩ := spanFoundation_ok hE
  obtain ⟨-, -, -, e3, e4, -⟩ := C64_scope _ _ _ _ hE
  simp only at e3 e4
  obtain ⟨refs, q1, q2, -⟩ := C64_floating E.toFound e1 (by rw [e3]; exact hL) inv hS E e2 v
  have hown : ownLoads 0 ls = [.udl (-(k * v))] := by rw [hls']; simp [ownLoads]
  rw [hown, FoundEl.ref] at hr0
  rw [e4] at q1
  rw [q1] at hr0
  have hend : ∀ d : ℕ → ℝ, elemVec d 0 = ![v, 0, v, 0] → s.endForces d 0 = 0 := by
    intro d hd
    rw [System.endForces, hd, ← Except.ok.inj hk0, ← Except.ok.inj hr0]
    exact q2
  have hsol : s.IsSolution fun p => if p % 2 = 0 then v else 0 := by
    constructor
    · intro p hp' w hw
      rw [System.N, hn1] at hp'
      simp only [System.constr, hr, hp] at hw
      have : p < 4 := hp'
      interval_cases p <;> simp [floatBeam] at hw
    · intro p hp' _
      rw [System.N, hn1] at hp'
      have hsp : ∀ p < 4, s.spring p = 0 := by
        intro p hp4
        simp only [System.spring, hr]
        interval_cases p <;> simp [floatBeam]
      have hz : s.endForces (fun p => if p % 2 = 0 then v else 0) 0 = 0 := hend _ (by
        funext a
        fin_cases a <;> simp [elemVec])
      have h4 : p < 4 := hp'
      have key : ∀ j ≤ 1, ∀ c : Fin 2, s.residual (fun p => if p % 2 = 0 then v else 0) (2 * j + c) = 0 := by
        intro j hj c
        have hc := c.isLt
        rw [s.residual_node _ j (by omega) c, hsp _ (by omega)]
        interval_cases j
        · simp [hn1, hz]
        · simp [hn1, hz]
      interval_cases p
      · exact key 0 (by omega) 0
      · exact key 0 (by omega) 1
      · exact key 1 (by omega) 0
      · exact key 1 (by omega) 1
  obtain ⟨hd, -⟩ := System.analyze_ok hs h2
  have hns := C112_held (floatBeam EI L k (-(k * v))) (by
      intro m hm
      simp only [floatBeam, List.mem_singleton] at hm
      subst hm
      simp [Member.Good, Rigidity.Good, hEI, hL]) (by
      intro i k' hk'
      rcases i with _ | i
      · rw [hkf] at hk'; cases hk'; exact hk
      · simp [FBeam.kfAt, floatBeam] at hk') inv hS s h1 0 (by simp [floatBeam]) k hkf
  funext a
  have := System.IsSolution.unique hns hd hsol a (by have := a.isLt; rw [System.N, hn1]; omega)
  simp only [elemVec]
  fin_cases a <;> simpa using this

/-- **C114 fails** on foundation members: a span floating at `v` without bending is drawn with
vertical lines.  The curve has two consecutive points at the same place inside the span, the
first with deflection zero (a closure point between two pieces of the mesh), the second with
deflection `v`. -/
theorem C114_foundation_violation (EI L k v : ℝ) (hEI : 0 < EI) (hL : 0 < L) (hk : 0 < k)
    (inv : Inverter ℝ) (hS : inv.Sound) (stable : System ℝ → Bool) (solve : Solver ℝ)
    (hs : solve.Sound) (res : Result ℝ)
    (h : (floatBeam EI L k (-(k * v))).analyze inv stable solve = .ok res) (npts : ℕ)
    (sp : ℕ → List ℝ) (vs : List (List (FStn ℝ)))
    (hv : (floatBeam EI L k (-(k * v))).memberStations inv res npts sp = .ok vs) :
    (res.d 0 = v ∧ res.d 1 = 0 ∧ res.d 2 = v ∧ res.d 3 = 0) ∧
    ∃ (j : ℕ) (x : ℝ), 0 < x ∧ x < L ∧
      (deflectionCurve vs)[j]? = some (x, 0) ∧ (deflectionCurve vs)[j + 1]? = some (x, v) := by
  have hd := floatBeam_solution EI L k v hEI hL hk inv hS stable solve hs res h
  refine ⟨⟨by simpa [elemVec] using congrFun hd 0, by simpa [elemVec] using congrFun hd 1,
    by simpa [elemVec] using congrFun hd 2, by simpa [elemVec] using congrFun hd 3⟩, ?_⟩
  obtain ⟨hlen, ls, hls, hc⟩ := FBeam.memberStations_ok hv
  have hls' : ls = [⟨0, .udl (-(k * v))⟩] := by
    have : (floatBeam EI L k (-(k * v))).setLoads = .ok [⟨0, .udl (-(k * v))⟩] := by
      simp [BeamDef.setLoads, floatBeam, parseLM, parseRow]
    rw [this] at hls
    exact (Except.ok.inj hls).symm
  have hl1 : vs.length = 1 := hlen
  obtain ⟨l, l1, l2⟩ := hc 0 (by simp [floatBeam]) (by omega)
  change FBeam.stationsOf _ inv ls res npts sp ⟨.const EI, L, .FF, none⟩ 0 = _ at l1
  have hkf : (floatBeam EI L k (-(k * v))).kfAt 0 = some k := rfl
  have hown : ownLoads 0 ls = [.udl (-(k * v))] := by rw [hls']; simp [ownLoads]
  simp only [FBeam.stationsOf, hkf] at l1
  split at l1
  · cases l1
  rename_i E hE
  obtain ⟨e1, e2⟩ := spanFoundation_ok hE
  obtain ⟨-, -, -, e3, e4, e5⟩ := C64_scope _ _ _ _ hE
  simp only at e3 e4 e5
  have e8 : 2 ≤ E.n := by
    unfold autoSubdivisions at e5
    split at e5
    · cases e5
    split at e5
    · cases e5
    split at e5
    · cases e5
    have := Except.ok.inj e5
    omega
  have hEL : 0 < E.L := by rw [e3]; exact hL
  have hh := E.h_pos e1 hEL
  rw [hd, hown] at l1
  obtain ⟨refs, q1, q2, q3⟩ := C64_floating E.toFound e1 hEL inv hS E e2 v
  rw [e4] at q1
  unfold FoundEl.recover at l1
  rw [q1] at l1
  simp only [Found.subLoads, Found.subLoad] at l1
  cases l1
  set q := E.nptsSub npts with hq
  have hq2 : 2 ≤ q := le_max_left _ _
  set P := E.pieceValues refs (fun k_1 => [Load.udl (-(k * v))] ++ []) ![v, 0, v, 0] q with hP
  let c : ℕ → MCtx ℝ := fun e => pieceCtx E.EI E.h (E.pieceForces refs ![v, 0, v, 0] e)
    (elemVec (E.mesh refs ![v, 0, v, 0]) e) [Load.udl (-(k * v))] q
  have hPe : ∀ e, P e = (List.range (q + 3)).map fun j =>
      (⟨(c e).x j + (e : ℝ) * E.h, (c e).M j, (c e).V j, (c e).R j, (c e).D j⟩ : FStn ℝ) := by
    intro e
    have := ((c e).x_spec hh (by simp only [c, pieceCtx]; omega)).1
    have hn' : (c e).n = q + 3 := by rw [this]; simp [c, pieceCtx, insidePoints]
    rw [hP, ← hn']
    rfl
  obtain ⟨N, hN⟩ : ∃ N, E.n = N + 2 := ⟨E.n - 2, by omega⟩
  have hout : (List.range E.n).flatMap P = P 0 ++ (P 1 ++ (List.range N).flatMap fun e => P (e + 2)) := by
    rw [hN, List.range_succ_eq_map, List.flatMap_cons, List.flatMap_map, List.range_succ_eq_map,
      List.flatMap_cons, List.flatMap_map]
  set out := (List.range E.n).flatMap P with hout'
  have hlP : ∀ e, (P e).length = q + 3 := fun e => by rw [hPe]; simp
  have hcurve : deflectionCurve vs = (inner out).map fun s => (s.x, s.D) := by
    have hvs : vs = [vs[0]] := by
      apply List.ext_getElem
      · simp [hl1]
      · intro i h1 h2
        have : i = 0 := by simp at h2; exact h2
        subst this
        rfl
    rw [hvs, l2]
    simp only [deflectionCurve, List.flatMap_cons, List.flatMap_nil, List.append_nil]
    rw [inner_map, List.map_map]
    congr 1
    funext s
    simp [floatBeam, BeamDef.nodeX]
  have hget : ∀ j, j + 2 < out.length → (inner out)[j]? = out[j + 1]? := by
    intro j hj
    rw [inner, List.getElem?_dropLast, if_pos (by simp only [List.length_tail]; omega),
      List.getElem?_tail]
  have hlo : 2 * (q + 3) ≤ out.length := by
    rw [hout, List.length_append, List.length_append, hlP, hlP]
    omega
  have hx0 : ∀ e, (c e).x 0 = 0 ∧ (c e).x 1 = 0 := fun e =>
    ⟨((c e).x_spec hh (by simp only [c, pieceCtx]; omega)).2.1,
      ((c e).x_spec hh (by simp only [c, pieceCtx]; omega)).2.2.1⟩
  have ho : ∀ j < q + 3, out[q + 3 + j]? = (P 1)[j]? := by
    intro j hj
    rw [hout, List.getElem?_append_right (by rw [hlP]; omega), hlP,
      show q + 3 + j - (q + 3) = j by omega, List.getElem?_append_left (by rw [hlP]; exact hj)]
  refine ⟨q + 2, E.h, hh, ?_, ?_, ?_⟩
  · rw [← e3, ← E.n_h e1]
    have : (2 : ℝ) ≤ E.n := by exact_mod_cast e8
    nlinarith
  · rw [hcurve, List.getElem?_map, hget _ (by omega), show q + 2 + 1 = q + 3 + 0 by omega,
      ho 0 (by omega), hPe, List.getElem?_map, List.getElem?_range (by omega)]
    simp only [Option.map_some, Option.some.injEq, Prod.mk.injEq]
    constructor
    · rw [(hx0 1).1]
      simp
    · simp only [MCtx.D]
      rw [if_pos (show (c 1).IsEnd 0 from Or.inl rfl)]
      have hz := (hx0 1).1
      have hw : (c 1).own = [Load.udl (-(k * v))] := rfl
      rw [hw]
      simp [Load.ssRD, Load.stn, mambStn, udlStn, hz]
  · rw [hcurve, List.getElem?_map, hget _ (by omega), show q + 2 + 1 + 1 = q + 3 + 1 by omega,
      ho 1 (by omega), hPe, List.getElem?_map, List.getElem?_range (by omega)]
    simp only [Option.map_some, Option.some.injEq, Prod.mk.injEq]
    constructor
    · rw [(hx0 1).2]
      simp
    · simp only [MCtx.D]
      have hn' : (c 1).n = q + 3 := by
        rw [((c 1).x_spec hh (by simp only [c, pieceCtx]; omega)).1]
        simp [c, pieceCtx, insidePoints]
      rw [if_neg (by simp only [MCtx.IsEnd, hn']; omega)]
      have := (q3 1 (by omega)).1
      simp [MCtx.defl, cumTrap, c, pieceCtx, elemVec]
      simpa using this

/-- The floating span is analysed and its stations are computed. -/
theorem floatBeam_completes (EI L k w : ℝ) (hEI : 0 < EI) (hL : 0 < L) (hk : 0 < k) (npts : ℕ) :
    ∃ solve : Solver ℝ, solve.Sound ∧ ∃ res,
      (floatBeam EI L k w).analyze anyInverter (fun _ => true) solve = .ok res ∧
      ∃ vs, (floatBeam EI L k w).memberStations anyInverter res npts (fun _ => []) = .ok vs := by
  have hls : (floatBeam EI L k w).setLoads = .ok [⟨0, .udl w⟩] := by
    simp [BeamDef.setLoads, floatBeam, parseLM, parseRow]
  have hkf : (floatBeam EI L k w).kfAt 0 = some k := rfl
  have hE : ∃ E, spanFoundation anyInverter ⟨.const EI, L, .FF, none⟩ k = .ok E := by
    have h4 : 0 < 4 * EI / k := by positivity
    simp only [spanFoundation, autoSubdivisions]
    rw [if_neg hk.ne', if_neg (not_lt.2 h4.le), if_neg h4.ne']
    exact Found.build_any ⟨L, EI, k, _⟩ (by simp only; omega) hL hEI hk
  obtain ⟨E, hE⟩ := hE
  have hr : ∃ r, E.refs [.udl w] = .ok r := by
    simp only [Found.refs, Found.subLoads, Found.subLoad]
    exact mapE_of_ok _ fun a _ => by simp [pieceRef, Load.getRef, Load.getCnl, releaseCnl]
  obtain ⟨r, hr⟩ := hr
  have hown : ownLoads 0 [(⟨0, .udl w⟩ : SpanLoad ℝ)] = [.udl w] := by simp [ownLoads]
  obtain ⟨s, h1⟩ := FBeam.system_exists (floatBeam EI L k w) anyInverter _ hls (by
      intro i hi
      have : i = 0 := by simp [floatBeam] at hi; exact hi
      subst this
      refine ⟨E.k, ?_⟩
      change spanKf anyInverter ⟨.const EI, L, .FF, none⟩ (some k) = _
      simp only [spanKf]
      rw [hE]) (by
      intro i hi
      have : i = 0 := by simp [floatBeam] at hi; exact hi
      subst this
      refine ⟨E.refOf r, ?_⟩
      change spanRef anyInverter ⟨.const EI, L, .FF, none⟩ 0 _ (some k) = _
      simp only [spanRef, hown]
      rw [hE]
      simp only [FoundEl.ref]
      rw [hr]) (by simp [floatBeam]) (by simp [floatBeam])
  obtain ⟨solve, hs, res, h⟩ := C112_completes (floatBeam EI L k w) (by
      intro m hm
      simp only [floatBeam, List.mem_singleton] at hm
      subst hm
      simp [Member.Good, Rigidity.Good, hEI, hL]) (by
      intro i k' hk'
      rcases i with _ | i
      · rw [hkf] at hk'; cases hk'; exact hk
      · simp [FBeam.kfAt, floatBeam] at hk') _ anyInverter_sound s h1 0 (by simp [floatBeam]) k hkf
    (fun i => by rcases i with _ | _ | _ | _ | i <;> simp [floatBeam])
  refine ⟨solve, hs, res, h, ?_⟩
  have ho : ∃ l, E.recover (elemVec res.d 0) [.udl w] npts = .ok l := by
    unfold FoundEl.recover
    rw [hr]
    exact ⟨_, rfl⟩
  obtain ⟨l, ho⟩ := ho
  unfold FBeam.memberStations
  rw [hls]
  simp only
  apply mapE_of_ok
  intro mi hmi
  have : mi = (⟨.const EI, L, .FF, none⟩, 0) := by
    simpa [floatBeam] using hmi
  subst this
  simp only [FBeam.stationsOf, hkf, hown]
  rw [hE]
  simp only [ho]
  exact ⟨_, rfl⟩

/-- The violation on a span of length 8 floating at 6 under the load of 300. -/
example : ∃ (solve : Solver ℝ) (res : Result ℝ) (vs : List (List (FStn ℝ))), solve.Sound ∧
    (floatBeam 1000 8 50 (-(50 * 6))).analyze anyInverter (fun _ => true) solve = .ok res ∧
    (floatBeam 1000 8 50 (-(50 * 6))).memberStations anyInverter res 100 (fun _ => []) = .ok vs ∧
    ∃ (j : ℕ) (x : ℝ), 0 < x ∧ x < 8 ∧
      (deflectionCurve vs)[j]? = some (x, 0) ∧ (deflectionCurve vs)[j + 1]? = some (x, 6) := by
  obtain ⟨solve, h1, res, h2, vs, h3⟩ := floatBeam_completes 1000 8 50 (-(50 * 6)) (by norm_num)
    (by norm_num) (by norm_num) 100
  exact ⟨solve, res, vs, h1, h2, h3, (C114_foundation_violation 1000 8 50 6 (by norm_num)
    (by norm_num) (by norm_num) anyInverter anyInverter_sound _ solve h1 res h2 100 _ vs h3).2⟩

/-- C114 at the beam of a foundation span and a free span: the curve of the free span starts
at the middle node with its displacement and has 101 points. -/
example (res : Result ℝ) :
    ∃ vs, exFloat.memberStations anyInverter res 100 (fun _ => []) = .ok vs ∧
    ∃ parts : ℕ → List (FStn ℝ), deflectionCurve vs
        = (List.range 2).flatMap (fun i => (parts i).map fun s => (s.x, s.D)) ∧
      (parts 1).length = 101 ∧ ∃ s, (parts 1).head? = some s ∧ s.x = 2 ∧ s.D = res.d 2 := by
  obtain ⟨E, hE⟩ := exFloat_found
  have hv : ∃ vs, exFloat.memberStations anyInverter res 100 (fun _ => []) = .ok vs := by
    unfold FBeam.memberStations
    rw [exFloat_loads]
    simp only
    apply mapE_of_ok
    intro mi hmi
    have : mi = (⟨.const 6, 2, .FF, none⟩, 0) ∨ mi = (⟨.const 6, 3, .FF, none⟩, 1) := by
      simpa [exFloat] using hmi
    rcases this with rfl | rfl
    · have hk : exFloat.kfAt 0 = some 50 := rfl
      have hown : ownLoads 0 [(⟨0, .udl 3⟩ : SpanLoad ℝ), ⟨1, .pl 5 1⟩] = [.udl 3] := by
        simp [ownLoads]
      have hr : ∃ r, E.refs [.udl 3] = .ok r := by
        simp only [Found.refs, Found.subLoads, Found.subLoad]
        exact mapE_of_ok _ fun a _ => by simp [pieceRef, Load.getRef, Load.getCnl, releaseCnl]
      obtain ⟨r, hr⟩ := hr
      have ho : ∃ l, E.recover (elemVec res.d 0) [.udl 3] 100 = .ok l := by
        unfold FoundEl.recover
        rw [hr]
        exact ⟨_, rfl⟩
      obtain ⟨l, ho⟩ := ho
      simp only [FBeam.stationsOf, hk, hown]
      rw [hE]
      simp only [ho]
      exact ⟨_, rfl⟩
    · have hk : exFloat.kfAt 1 = none := rfl
      simp only [FBeam.stationsOf, hk]
      exact ⟨_, rfl⟩
  obtain ⟨vs, hv⟩ := hv
  obtain ⟨parts, p1, -, p2⟩ := C114_curve_partial exFloat (fun m hm => (exFloat_good m hm).1.1) anyInverter
    res 100 (by norm_num) _ vs hv
  obtain ⟨⟨s, s1, s2, s3⟩, -, -, s4⟩ := p2 1 (by simp [exFloat])
  refine ⟨vs, hv, parts, p1, ?_, s, s1, ?_, s3⟩
  · have := (s4 rfl).1
    simpa [insidePoints] using this
  · rw [s2]
    simp [BeamDef.nodeX, exFloat]

end PyCBA
