import Verif.Nonlinear.Mesh
import Mathlib.Algebra.BigOperators.Intervals

/-!
C68: the nodal load vectors of the nonlinear analysis.
-/

set_option linter.unusedSectionVars false
set_option linter.unusedSimpArgs false

namespace PyCBA

open Matrix

variable {K : Type*} [Field K] [LinearOrder K] [IsStrictOrderedRing K]

/-- A mesh of positive elements from 0 to the end of the beam. -/
structure NL.Geo (c : NL K) : Prop where
  nodes : c.nNodes = c.nElem + 1
  first : c.x 0 = 0
  last : c.x c.nElem = c.total
  step : ∀ k < c.nElem, 0 < c.len k ∧ c.x (k + 1) = c.x k + c.len k
  supports : ∀ i ≤ c.spanL.length, ∃ j ≤ c.nElem, c.x j = (c.spanL.take i).sum

theorem NL.new_geo [FloorRing K] {L : List K} {EI : SpanArg (Rigidity K)} {R : List K}
    {Mp : SpanArg K} {My : Option (SpanArg K)} {q ms : K} {c : NL K}
    (h : NL.new L EI R Mp My q ms = .ok c) (hL : ∀ l ∈ L, 0 < l) : c.Geo ∧ c.spanL = L := by
  obtain ⟨_, _, e2, _⟩ := NL.new_ok h
  obtain ⟨_, _, a1, a2, a3, a4, a5, _⟩ := C67_mesh_partial L EI R Mp My q ms c h hL
  exact ⟨⟨a1, a2, by rw [a3, NL.total, e2], a4, by rw [e2]; exact a5⟩, e2⟩

theorem NL.Geo.mono {c : NL K} (g : c.Geo) {a b : ℕ} (hab : a ≤ b) (hb : b ≤ c.nElem) :
    c.x a ≤ c.x b := by
  induction b with
  | zero => rw [show a = 0 by omega]
  | succ b ih =>
    rcases Nat.lt_or_ge a (b + 1) with h | h
    · have h1 := ih (by omega) (by omega)
      obtain ⟨h2, h3⟩ := g.step b (by omega)
      linarith
    · rw [show a = b + 1 by omega]

theorem NL.Geo.lt {c : NL K} (g : c.Geo) {a b : ℕ} (hab : a < b) (hb : b ≤ c.nElem) :
    c.x a < c.x b := by
  obtain ⟨h2, h3⟩ := g.step a (by omega)
  have := g.mono (show a + 1 ≤ b by omega) hb
  linarith

/-- The work of a nodal load vector on a displacement vector. -/
def nlWork (N : ℕ) (φ F : ℕ → K) : K := ∑ p ∈ Finset.range N, φ p * F p

theorem nlWork_sub (N : ℕ) (φ F : ℕ → K) {p : ℕ} (hp : p < N) (v : K) :
    nlWork N φ (NL.sub F p v) = nlWork N φ F - φ p * v := by
  unfold nlWork NL.sub
  have : ∀ r ∈ Finset.range N, φ r * (if r = p then F r - v else F r)
      = φ r * F r - (if r = p then φ r * v else 0) := by
    intro r _
    split <;> ring
  rw [Finset.sum_congr rfl this, Finset.sum_sub_distrib, Finset.sum_ite_eq' (Finset.range N) p]
  rw [if_pos (Finset.mem_range.2 hp)]

theorem nlWork_zero (N : ℕ) (φ : ℕ → K) : nlWork N φ (fun _ => 0) = 0 := by
  simp [nlWork]

/-- The rigid-body displacement with rise `α` at the origin and slope `β`. -/
def nlRigid (c : NL K) (α β : K) (p : ℕ) : K := if p % 2 = 0 then α + β * c.x (p / 2) else β

theorem nlRigid_even (c : NL K) (α β : K) (j : ℕ) : nlRigid c α β (2 * j) = α + β * c.x j := by
  rw [nlRigid, if_pos (by omega), show 2 * j / 2 = j by omega]

theorem nlRigid_odd (c : NL K) (α β : K) (j : ℕ) : nlRigid c α β (2 * j + 1) = β := by
  rw [nlRigid, if_neg (by omega)]

theorem argminAbs_nodes {c : NL K} (g : c.Geo) (x : K) :
    argminAbs c.mesh.nodes x ≤ c.nElem ∧
      ∀ k ≤ c.nElem, |c.x (argminAbs c.mesh.nodes x) - x| ≤ |c.x k - x| := by
  have hlen : c.mesh.nodes.length = c.nElem + 1 := g.nodes
  have hne : c.mesh.nodes ≠ [] := by
    intro h
    rw [h] at hlen
    simp at hlen
  obtain ⟨hi, hm⟩ := argminAbs_spec c.mesh.nodes x hne
  have hget : ∀ r (hr : r < c.mesh.nodes.length), c.x r = c.mesh.nodes[r] := by
    intro r hr
    rw [NL.x, List.getD_eq_getElem?_getD, List.getElem?_eq_getElem hr]
    rfl
  refine ⟨by omega, fun k hk => ?_⟩
  rw [hget _ hi, hget k (by omega)]
  exact hm k (by omega)

/-- A point load on the beam is either put on a node within `1e-10`, or shared between
the ends of the element it is in as the fixed-end forces of that element. -/
theorem addPoint_cases {c : NL K} (g : c.Geo) (F : ℕ → K) (P x : K) (h0 : 0 ≤ x) (h1 : x ≤ c.total) :
    (∃ j ≤ c.nElem, |c.x j - x| < 1 / 10 ^ 10 ∧ c.addPoint F P x = NL.sub F (2 * j) P) ∨
    ∃ k < c.nElem, c.x k < x ∧ x < c.x (k + 1) ∧
      c.addPoint F P x =
        NL.sub (NL.sub (NL.sub (NL.sub F (2 * k) (P * (c.x (k + 1) - x) ^ 2
            * (3 * (x - c.x k) + (c.x (k + 1) - x)) / c.len k ^ 3))
          (2 * k + 1) (P * (x - c.x k) * (c.x (k + 1) - x) ^ 2 / c.len k ^ 2))
          (2 * (k + 1)) (P * (x - c.x k) ^ 2
            * ((x - c.x k) + 3 * (c.x (k + 1) - x)) / c.len k ^ 3))
          (2 * (k + 1) + 1) (-(P * (x - c.x k) ^ 2 * (c.x (k + 1) - x) / c.len k ^ 2)) := by
  obtain ⟨hi, hm⟩ := argminAbs_nodes g x
  set ni := argminAbs c.mesh.nodes x with hni
  have hcond : ¬ (x < 0 ∨ c.total < x) := by
    push Not
    exact ⟨h0, h1⟩
  unfold NL.addPoint
  rw [if_neg hcond, ← hni]
  simp only
  by_cases hs : |c.x ni - x| < 1 / 10 ^ 10
  · left
    exact ⟨ni, hi, hs, by rw [if_pos hs]⟩
  · right
    have hne : c.x ni ≠ x := by
      intro h
      apply hs
      rw [h, sub_self, abs_zero]
      positivity
    rw [if_neg hs]
    have key : ∃ k, k < c.nElem ∧ (if c.x ni < x then ni else ni - 1) = k ∧ c.x k < x ∧
        x < c.x (k + 1) := by
      by_cases hlt : c.x ni < x
      · have hk : ni < c.nElem := by
          rcases Nat.lt_or_ge ni c.nElem with h | h
          · exact h
          · rw [show ni = c.nElem by omega, g.last] at hlt
            exact absurd hlt (not_lt.2 h1)
        refine ⟨ni, hk, if_pos hlt, hlt, ?_⟩
        by_contra hge
        push Not at hge
        have h2 := g.lt (show ni < ni + 1 by omega) (show ni + 1 ≤ c.nElem by omega)
        have h3 := hm (ni + 1) (by omega)
        rw [abs_of_nonpos (by linarith), abs_of_nonpos (by linarith)] at h3
        linarith
      · have hgt : x < c.x ni := lt_of_le_of_ne (not_lt.1 hlt) (Ne.symm hne)
        have hk : 0 < ni := by
          rcases Nat.eq_zero_or_pos ni with h | h
          · rw [h, g.first] at hgt
            exact absurd hgt (not_lt.2 h0)
          · exact h
        refine ⟨ni - 1, by omega, if_neg hlt, ?_, by rw [show ni - 1 + 1 = ni by omega]; exact hgt⟩
        by_contra hge
        push Not at hge
        have h2 := g.lt (show ni - 1 < ni by omega) hi
        have h3 := hm (ni - 1) (by omega)
        rw [abs_of_nonneg (by linarith), abs_of_nonneg (by linarith)] at h3
        linarith
    obtain ⟨k, a, b, e, f⟩ := key
    refine ⟨k, a, e, f, ?_⟩
    rw [b]
    have hs := (g.step _ a).2
    have hb : c.x (k + 1) - c.x k = c.len k := by rw [hs]; ring
    have hb' : c.len k - (x - c.x k) = c.x (k + 1) - x := by rw [hs]; ring
    rw [hb, hb']

/-- The rigid-body work of a point load: exact up to the snapping distance. -/
theorem addPoint_work {c : NL K} (g : c.Geo) (F : ℕ → K) (P x α β : K) (h0 : 0 ≤ x)
    (h1 : x ≤ c.total) :
    ∃ e : K, |e| ≤ 1 / 10 ^ 10 ∧ nlWork c.nDof (nlRigid c α β) (c.addPoint F P x)
      = nlWork c.nDof (nlRigid c α β) F - P * (α + β * (x + e)) := by
  have hN : c.nDof = 2 * c.nElem + 2 := by rw [NL.nDof, g.nodes]; ring
  rcases addPoint_cases g F P x h0 h1 with ⟨j, hj, hs, he⟩ | ⟨k, hk, hk1, hk2, he⟩
  · refine ⟨c.x j - x, hs.le, ?_⟩
    rw [he, nlWork_sub _ _ _ (by omega), nlRigid_even]
    ring
  · refine ⟨0, by rw [abs_zero]; positivity, ?_⟩
    rw [he, nlWork_sub _ _ _ (by omega), nlWork_sub _ _ _ (by omega), nlWork_sub _ _ _ (by omega),
      nlWork_sub _ _ _ (by omega), nlRigid_even, nlRigid_even, nlRigid_odd, nlRigid_odd]
    obtain ⟨hp, hst⟩ := g.step k hk
    have hl : c.len k = c.x (k + 1) - c.x k := by rw [hst]; ring
    have hl' : c.x (k + 1) - c.x k ≠ 0 := by rw [← hl]; exact hp.ne'
    rw [hl]
    generalize c.x (k + 1) = b at *
    generalize c.x k = a at *
    field_simp
    ring

/-- The rigid-body work of a UDL between two nodes. -/
theorem addUdl_work {c : NL K} (g : c.Geo) (hlong : ∀ k < c.nElem, 1 / 10 ^ 10 < c.len k) (F : ℕ → K)
    (w α β : K) {a b : ℕ} (hab : a ≤ b) (hb : b ≤ c.nElem) :
    nlWork c.nDof (nlRigid c α β) (c.addUdl F w (c.x a) (c.x b))
      = nlWork c.nDof (nlRigid c α β) F
        - w * (c.x b - c.x a) * (α + β * ((c.x a + c.x b) / 2)) := by
  have hN : c.nDof = 2 * c.nElem + 2 := by rw [NL.nDof, g.nodes]; ring
  set G : K → K := fun y => w * (α * y + β * y ^ 2 / 2) with hG
  have key : ∀ n ≤ c.nElem, nlWork c.nDof (nlRigid c α β)
      ((List.range n).foldl (fun F ie =>
        if c.x (ie + 1) ≤ c.x a + 1 / 10 ^ 10 ∨ c.x b - 1 / 10 ^ 10 ≤ c.x ie then F
        else NL.sub (NL.sub F (2 * ie) (w * c.len ie / 2)) (2 * (ie + 1)) (w * c.len ie / 2)) F)
      = nlWork c.nDof (nlRigid c α β) F - (G (c.x (max a (min n b))) - G (c.x a)) := by
    intro n
    induction n with
    | zero => intro _; simp
    | succ n ih =>
      intro hn
      have ih := ih (by omega)
      rw [List.range_succ, List.foldl_append]
      simp only [List.foldl_cons, List.foldl_nil]
      obtain ⟨hp, hst⟩ := g.step n (by omega)
      have hε : (0 : K) < 1 / 10 ^ 10 := by positivity
      by_cases hin : a ≤ n ∧ n < b
      · have h1 : c.x a + 1 / 10 ^ 10 < c.x (n + 1) := by
          have := g.mono hin.1 (by omega)
          have := hlong n (by omega)
          linarith
        have h2 : c.x n < c.x b - 1 / 10 ^ 10 := by
          have := g.mono (show n + 1 ≤ b by omega) hb
          have := hlong n (by omega)
          linarith
        rw [if_neg (by push Not; exact ⟨h1, h2⟩), nlWork_sub _ _ _ (by omega),
          nlWork_sub _ _ _ (by omega), ih, nlRigid_even, nlRigid_even]
        rw [show max a (min (n + 1) b) = n + 1 by omega, show max a (min n b) = n by omega, hst]
        simp only [hG]
        ring
      · have hc : c.x (n + 1) ≤ c.x a + 1 / 10 ^ 10 ∨ c.x b - 1 / 10 ^ 10 ≤ c.x n := by
          rcases Nat.lt_or_ge n a with h | h
          · left
            have := g.mono (show n + 1 ≤ a by omega) (by omega)
            linarith
          · right
            have := g.mono (show b ≤ n by omega) (by omega)
            linarith
        rw [if_pos hc, ih, show max a (min (n + 1) b) = max a (min n b) by omega]
  have := key c.nElem le_rfl
  rw [show max a (min c.nElem b) = b by omega] at this
  unfold NL.addUdl
  rw [this]
  simp only [hG]
  ring

/-! ### C68 -/

/-- A UDL or a point load on an existing span, the latter on the beam. -/
def nlSupported (L : List K) (r : Row K) : Prop :=
  1 ≤ r.span ∧ r.span ≤ L.length ∧
    ((r.ltype = 1 ∧ ∃ w t, r.args = w :: t) ∨
     (r.ltype = 2 ∧ ∃ P a t, r.args = P :: a :: t ∧
        0 ≤ (L.take (r.span - 1).toNat).sum + a ∧ (L.take (r.span - 1).toNat).sum + a ≤ L.sum))

/-- The weight of a load. -/
def nlWeight (L : List K) (r : Row K) : K :=
  if r.ltype = 1 then r.args.getD 0 0 * L.getD (r.span - 1).toNat 0 else r.args.getD 0 0

/-- Where the resultant of a load acts. -/
def nlCentroid (L : List K) (r : Row K) : K :=
  (L.take (r.span - 1).toNat).sum +
    if r.ltype = 1 then L.getD (r.span - 1).toNat 0 / 2 else r.args.getD 1 0

theorem addRow_work {c : NL K} (g : c.Geo) (hlong : ∀ k < c.nElem, 1 / 10 ^ 10 < c.len k)
    (hL : ∀ l ∈ c.spanL, 0 < l) (F : ℕ → K) (r : Row K) (hr : nlSupported c.spanL r) :
    ∃ F', c.addRow F r = .ok F' ∧ ∃ e : K, |e| ≤ 1 / 10 ^ 10 ∧ ∀ α β,
      nlWork c.nDof (nlRigid c α β) F' = nlWork c.nDof (nlRigid c α β) F
        - nlWeight c.spanL r * (α + β * (nlCentroid c.spanL r + e)) := by
  obtain ⟨s1, s2, hr⟩ := hr
  obtain ⟨i, hi⟩ : ∃ i : ℕ, r.span - 1 = i := ⟨(r.span - 1).toNat, by omega⟩
  have hin : i < c.spanL.length := by omega
  have hp1 : NL.pyIndex (c.spanL.length + 1) (r.span - 1) = .ok i := by
    unfold NL.pyIndex
    rw [if_pos (by push_cast; omega), hi]
    rfl
  have hp2 : NL.pyIndex (c.spanL.length + 1) (r.span - 1 + 1) = .ok (i + 1) := by
    unfold NL.pyIndex
    rw [if_pos (by push_cast; omega), hi]
    rfl
  have hget : c.spanL.getD i 0 = c.spanL[i] := by
    rw [List.getD_eq_getElem?_getD, List.getElem?_eq_getElem hin]
    rfl
  have hsucc : spanStart c.spanL (i + 1) = spanStart c.spanL i + c.spanL[i] := by
    rw [spanStart, spanStart, List.take_add_one, List.getElem?_eq_getElem hin, Option.toList_some,
      List.sum_append, List.sum_singleton]
  rcases hr with ⟨ht, w, t, ha⟩ | ⟨ht, P, a, t, ha, hx0, hx1⟩
  · obtain ⟨a, hale, hxa⟩ := g.supports i hin.le
    obtain ⟨b, hble, hxb⟩ := g.supports (i + 1) hin
    have hsa : spanStart c.spanL i = c.x a := hxa.symm
    have hsb : spanStart c.spanL (i + 1) = c.x b := hxb.symm
    have hab : a ≤ b := by
      by_contra hlt
      push Not at hlt
      have := g.lt hlt hale
      have := hL _ (List.getElem_mem hin)
      linarith
    refine ⟨c.addUdl F w (c.x a) (c.x b), ?_, 0, by rw [abs_zero]; positivity, fun α β => ?_⟩
    · unfold NL.addRow
      simp only [ha, ht, if_true, hp1, hp2, hsa, hsb]
    · rw [addUdl_work g hlong F w α β hab hble]
      simp only [nlWeight, nlCentroid, ht, if_true, ha, hi, Int.toNat_natCast, hget, List.getD_cons_zero]
      have : (List.take i c.spanL).sum = c.x a := hxa.symm
      rw [this]
      have : c.x b = c.x a + c.spanL[i] := by rw [← hsb, hsucc, hsa]
      rw [this]
      ring
  · have hne : ¬ r.ltype = 1 := by omega
    rw [hi, Int.toNat_natCast] at hx0 hx1
    -- the snapping distance does not depend on the virtual displacement
    have hex : ∃ e : K, |e| ≤ 1 / 10 ^ 10 ∧ ∀ α β, nlWork c.nDof (nlRigid c α β)
        (c.addPoint F P (spanStart c.spanL i + a)) = nlWork c.nDof (nlRigid c α β) F
          - P * (α + β * (spanStart c.spanL i + a + e)) := by
      by_cases hP : P = 0
      · refine ⟨0, by rw [abs_zero]; positivity, fun α β => ?_⟩
        obtain ⟨e, -, he⟩ := addPoint_work g F P _ α β hx0 hx1
        rw [hP] at he ⊢
        have he' : nlWork c.nDof (nlRigid c α β) (c.addPoint F 0 (spanStart c.spanL i + a)) = _ := he
        rw [he']
        ring
      · obtain ⟨e, he1, he⟩ := addPoint_work g F P _ 0 1 hx0 hx1
        refine ⟨e, he1, fun α β => ?_⟩
        have hlin : ∀ (α β : K) (G : ℕ → K), nlWork c.nDof (nlRigid c α β) G
            = α * nlWork c.nDof (nlRigid c 1 0) G + β * nlWork c.nDof (nlRigid c 0 1) G := by
          intro α β G
          unfold nlWork
          rw [Finset.mul_sum, Finset.mul_sum, ← Finset.sum_add_distrib]
          refine Finset.sum_congr rfl fun p _ => ?_
          unfold nlRigid
          split <;> ring
        obtain ⟨e', -, he'⟩ := addPoint_work g F P _ 1 0 hx0 hx1
        rw [hlin α β, hlin α β F]
        have e1 : nlWork c.nDof (nlRigid c 0 1) (c.addPoint F P (spanStart c.spanL i + a)) = _ := he
        have e2 : nlWork c.nDof (nlRigid c 1 0) (c.addPoint F P (spanStart c.spanL i + a)) = _ := he'
        rw [e1, e2]
        simp only [spanStart]
        ring
    obtain ⟨e, he1, he⟩ := hex
    refine ⟨c.addPoint F P (spanStart c.spanL i + a), ?_, e, he1, fun α β => ?_⟩
    · unfold NL.addRow
      simp only [ha, ht, if_true, hp1, show ¬ ((2 : ℤ) = 1) by decide, if_false]
    · rw [he]
      simp only [nlWeight, nlCentroid, hne, if_false, ha, hi, Int.toNat_natCast, List.getD_cons_zero,
        List.getD_cons_succ, spanStart]

/-- **C68** (loads it supports): with UDLs and point loads on the beam, in any number and
order, the vertical entries of the load vector add up to minus the total load, and the
moment of the vector about the left end is that of the loads, each at its own place up to
the `1e-10` within which a point load is moved to a node.  Elements must be longer than
that distance.  Other loads: `C68_types_violation`. -/
theorem C68_resultant_partial [FloorRing K] (L : List K) (EI : SpanArg (Rigidity K)) (R : List K)
    (Mp : SpanArg K) (My : Option (SpanArg K)) (q ms : K) (c : NL K)
    (h : NL.new L EI R Mp My q ms = .ok c) (hL : ∀ l ∈ L, 0 < l)
    (hlong : ∀ k < c.nElem, 1 / 10 ^ 10 < c.len k) (LM : List (Row K))
    (hLM : ∀ r ∈ LM, nlSupported L r) :
    ∃ F, c.forces (fun _ => 0) LM = .ok F ∧
      ∑ j ∈ Finset.range c.nNodes, F (2 * j) = - (LM.map (nlWeight L)).sum ∧
      |∑ j ∈ Finset.range c.nNodes, (c.x j * F (2 * j) + F (2 * j + 1))
        + (LM.map fun r => nlWeight L r * nlCentroid L r).sum|
        ≤ 1 / 10 ^ 10 * (LM.map fun r => |nlWeight L r|).sum := by
  obtain ⟨g, hS⟩ := NL.new_geo h hL
  subst hS
  have key : ∀ (LM : List (Row K)) (F₀ : ℕ → K), (∀ r ∈ LM, nlSupported c.spanL r) →
      ∃ F, c.forces F₀ LM = .ok F ∧ ∃ d : K, |d| ≤ 1 / 10 ^ 10 * (LM.map fun r => |nlWeight c.spanL r|).sum ∧
        ∀ α β, nlWork c.nDof (nlRigid c α β) F = nlWork c.nDof (nlRigid c α β) F₀
          - (α * (LM.map (nlWeight c.spanL)).sum
            + β * ((LM.map fun r => nlWeight c.spanL r * nlCentroid c.spanL r).sum + d)) := by
    intro LM
    induction LM with
    | nil => intro F₀ _; exact ⟨F₀, rfl, 0, by simp, fun α β => by simp⟩
    | cons r LM ih =>
      intro F₀ hLM
      obtain ⟨F₁, h1, e, he, hw⟩ := addRow_work g hlong hL F₀ r (hLM r (by simp))
      obtain ⟨F, h2, d, hd, hw2⟩ := ih F₁ fun r' hr' => hLM r' (by simp [hr'])
      refine ⟨F, ?_, nlWeight c.spanL r * e + d, ?_, fun α β => ?_⟩
      · unfold NL.forces
        rw [h1]
        exact h2
      · rw [List.map_cons, List.sum_cons, mul_add]
        refine (abs_add_le _ _).trans (add_le_add ?_ hd)
        rw [abs_mul, mul_comm]
        exact mul_le_mul_of_nonneg_right he (abs_nonneg _)
      · rw [hw2, hw]
        simp only [List.map_cons, List.sum_cons]
        ring
  obtain ⟨F, h1, d, hd, hw⟩ := key LM (fun _ => 0) hLM
  have hsum : ∀ α β, nlWork c.nDof (nlRigid c α β) F
      = ∑ j ∈ Finset.range c.nNodes, ((α + β * c.x j) * F (2 * j) + β * F (2 * j + 1)) := by
    intro α β
    unfold nlWork NL.nDof
    induction c.nNodes with
    | zero => simp
    | succ n ih =>
      rw [show 2 * (n + 1) = 2 * n + 1 + 1 by ring, Finset.sum_range_succ, Finset.sum_range_succ, ih,
        Finset.sum_range_succ, nlRigid_even, nlRigid_odd]
      ring
  refine ⟨F, h1, ?_, ?_⟩
  · have := hw 1 0
    rw [hsum, nlWork_zero] at this
    simp only [zero_mul, add_zero, one_mul, zero_sub] at this
    exact this
  · have := hw 0 1
    rw [hsum, nlWork_zero] at this
    simp only [zero_mul, one_mul, zero_add, zero_sub] at this
    rw [this]
    have e : ∀ a b : K, -(a + b) + a = -b := fun a b => by ring
    rw [e, abs_neg]
    exact hd

/-- **C68 fails**: any row of another load type changes nothing and raises nothing, and
neither does a point load off the beam. -/
theorem C68_types_violation (c : NL K) (F : ℕ → K) :
    (∀ (s t : ℤ) (v : K) (rest : List K), t ≠ 1 → t ≠ 2 →
      c.addRow F ⟨s, t, v :: rest⟩ = .ok F) ∧
    ∀ (i : ℕ) (P a : K) (rest : List K), i < c.spanL.length →
      (c.spanL.take i).sum + a < 0 ∨ c.spanL.sum < (c.spanL.take i).sum + a →
      c.addRow F ⟨i + 1, 2, P :: a :: rest⟩ = .ok F := by
  refine ⟨?_, ?_⟩
  · intro s t v rest h1 h2
    unfold NL.addRow
    simp only [h1, h2, if_false]
  · intro i P a rest hi hx
    unfold NL.addRow
    have hp : NL.pyIndex (c.spanL.length + 1) ((i : ℤ) + 1 - 1) = .ok i := by
      unfold NL.pyIndex
      rw [if_pos (by push_cast; omega)]
      simp
    simp only [hp, if_true, show ¬ ((2 : ℤ) = 1) by decide, if_false]
    have hx' : spanStart c.spanL i + a < 0 ∨ c.total < spanStart c.spanL i + a := hx
    unfold NL.addPoint
    rw [if_pos hx']

end PyCBA
