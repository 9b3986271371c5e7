import Verif.Bridge.Loads
import Verif.Envelope.Props
import Verif.Results.Props

/-!
C59: the critical values of a moving-load analysis.
-/

set_option linter.unusedSectionVars false
set_option linter.unusedSimpArgs false

namespace PyCBA

variable {K : Type*} [Field K] [LinearOrder K] [IsStrictOrderedRing K]

theorem npClose_self (a : K) : npClose a a := by
  unfold npClose
  rw [sub_self, abs_zero]
  positivity

theorem mem_critPos (pos : List K) (test : EnvRes K → Bool) (l : List (EnvRes K))
    (hlen : pos.length = l.length) (p : K) :
    p ∈ critPos pos test l ↔ ∃ j, ∃ hj : j < l.length, pos[j]'(hlen ▸ hj) = p ∧ test l[j] = true := by
  simp only [critPos, List.mem_map, List.mem_filter]
  constructor
  · rintro ⟨⟨r, q⟩, ⟨hm, ht⟩, rfl⟩
    obtain ⟨j, hj, he⟩ := List.getElem_of_mem hm
    rw [List.getElem_zip] at he
    simp only [Prod.mk.injEq] at he
    have hj' : j < l.length := by simp at hj; omega
    exact ⟨j, hj', he.2, by rw [he.1]; exact ht⟩
  · rintro ⟨j, hj, rfl, ht⟩
    refine ⟨(l[j], pos[j]'(hlen ▸ hj)), ⟨?_, ht⟩, rfl⟩
    have hz : j < (l.zip pos).length := by simp; omega
    have := List.getElem_mem hz
    rwa [List.getElem_zip] at this

theorem argMax_spec (n : ℕ) (a : ℕ → K) :
    argMax n a ≤ n ∧ a (argMax n a) = rowMax n a ∧ ∀ i < argMax n a, a i < rowMax n a := by
  induction n with
  | zero => simp [argMax, rowMax]
  | succ n ih =>
    obtain ⟨h1, h2, h3⟩ := ih
    have e1 : rowMax (n + 1) a = max (rowMax n a) (a (n + 1)) := by
      simp [rowMax, List.range_succ, List.foldl_append]
    have e2 : argMax (n + 1) a = if a (argMax n a) < a (n + 1) then n + 1 else argMax n a := by
      unfold argMax
      rw [List.range_succ, List.foldl_append]
      rfl
    rw [e1, e2, h2]
    by_cases h : rowMax n a < a (n + 1)
    · rw [if_pos h, max_eq_right h.le]
      refine ⟨le_rfl, rfl, fun i hi => lt_of_le_of_lt ?_ h⟩
      exact (rowMax_isGreatest n a).2 ⟨i, by omega, rfl⟩
    · rw [if_neg h, max_eq_left (not_lt.1 h)]
      exact ⟨by omega, h2, h3⟩

/-- One entry: `f` is the effect enveloped, `g` the other one. -/
theorem critMax (l : List (EnvRes K)) (pos : List K) (n : ℕ) (f g : EnvRes K → ℕ → K)
    (ext co : ℕ → K) (hne : l ≠ []) (hlen : pos.length = l.length)
    (hn : ∀ r ∈ l, r.npts - 1 = n)
    (hext : ∀ i, IsGreatest ({0} ∪ {y | ∃ r ∈ l, f r i = y}) (ext i))
    (hco : ∀ i, (ext i ≠ 0 → ∃ r ∈ l, f r i = ext i ∧ g r i = co i) ∧ (ext i = 0 → co i = 0))
    (hpad : ∀ r ∈ l, f r 0 = 0 ∧ g r 0 = 0) :
    (∀ r ∈ l, ∀ i ≤ n, f r i ≤ rowMax n ext) ∧
    argMax n ext ≤ n ∧ ∃ j, ∃ hj : j < l.length, f l[j] (argMax n ext) = rowMax n ext ∧
      g l[j] (argMax n ext) = co (argMax n ext) ∧
      pos[j]'(hlen ▸ hj) ∈ critPos pos (fun r => npClose (rowMax (r.npts - 1) (f r)) (rowMax n ext)) l := by
  obtain ⟨k1, k2, k3⟩ := argMax_spec n ext
  have hG := rowMax_isGreatest n ext
  have hle : ∀ r ∈ l, ∀ i ≤ n, f r i ≤ rowMax n ext := fun r hr i hi =>
    ((hext i).2 (Or.inr ⟨r, hr, rfl⟩)).trans (hG.2 ⟨i, hi, rfl⟩)
  have hrow : ∀ r ∈ l, f r (argMax n ext) = rowMax n ext → rowMax n (f r) = rowMax n ext := by
    intro r hr h
    apply le_antisymm
    · obtain ⟨i, hi, e⟩ := (rowMax_isGreatest n (f r)).1
      rw [← e]
      exact hle r hr i hi
    · rw [← h]
      exact (rowMax_isGreatest n (f r)).2 ⟨_, k1, rfl⟩
  have hmain : ∃ r ∈ l, f r (argMax n ext) = rowMax n ext ∧
      g r (argMax n ext) = co (argMax n ext) := by
    by_cases h0 : rowMax n ext = 0
    · have hz : ext 0 = rowMax n ext := by
        apply le_antisymm (hG.2 ⟨0, by omega, rfl⟩)
        rw [h0]
        exact (hext 0).2 (Or.inl rfl)
      have hk : argMax n ext = 0 := by
        by_contra hk
        have := k3 0 (by omega)
        rw [hz] at this
        exact lt_irrefl _ this
      obtain ⟨r, hr⟩ := List.exists_mem_of_ne_nil l hne
      refine ⟨r, hr, ?_, ?_⟩
      · rw [hk, (hpad r hr).1, h0]
      · rw [hk, (hpad r hr).2, (hco 0).2 (hz.trans h0)]
    · obtain ⟨r, hr, e1, e2⟩ := (hco (argMax n ext)).1 (by rw [k2]; exact h0)
      exact ⟨r, hr, e1.trans k2, e2⟩
  refine ⟨hle, k1, ?_⟩
  obtain ⟨r, hr, e1, e2⟩ := hmain
  obtain ⟨j, hj, rfl⟩ := List.getElem_of_mem hr
  refine ⟨j, hj, e1, e2, ?_⟩
  rw [mem_critPos pos _ l hlen]
  refine ⟨j, hj, rfl, ?_⟩
  rw [decide_eq_true_eq, hn _ hr, hrow _ hr e1]
  exact npClose_self _

theorem argMin_spec (n : ℕ) (a : ℕ → K) :
    argMin n a ≤ n ∧ a (argMin n a) = rowMin n a ∧ ∀ i < argMin n a, rowMin n a < a i := by
  induction n with
  | zero => simp [argMin, rowMin]
  | succ n ih =>
    obtain ⟨h1, h2, h3⟩ := ih
    have e1 : rowMin (n + 1) a = min (rowMin n a) (a (n + 1)) := by
      simp [rowMin, List.range_succ, List.foldl_append]
    have e2 : argMin (n + 1) a = if a (n + 1) < a (argMin n a) then n + 1 else argMin n a := by
      unfold argMin
      rw [List.range_succ, List.foldl_append]
      rfl
    rw [e1, e2, h2]
    by_cases h : a (n + 1) < rowMin n a
    · rw [if_pos h, min_eq_right h.le]
      refine ⟨le_rfl, rfl, fun i hi => lt_of_lt_of_le h ?_⟩
      exact (rowMin_isLeast n a).2 ⟨i, by omega, rfl⟩
    · rw [if_neg h, min_eq_left (not_lt.1 h)]
      exact ⟨by omega, h2, h3⟩

/-- One entry: `f` is the effect enveloped, `g` the other one. -/
theorem critMin (l : List (EnvRes K)) (pos : List K) (n : ℕ) (f g : EnvRes K → ℕ → K)
    (ext co : ℕ → K) (hne : l ≠ []) (hlen : pos.length = l.length)
    (hn : ∀ r ∈ l, r.npts - 1 = n)
    (hext : ∀ i, IsLeast ({0} ∪ {y | ∃ r ∈ l, f r i = y}) (ext i))
    (hco : ∀ i, (ext i ≠ 0 → ∃ r ∈ l, f r i = ext i ∧ g r i = co i) ∧ (ext i = 0 → co i = 0))
    (hpad : ∀ r ∈ l, f r 0 = 0 ∧ g r 0 = 0) :
    (∀ r ∈ l, ∀ i ≤ n, rowMin n ext ≤ f r i) ∧
    argMin n ext ≤ n ∧ ∃ j, ∃ hj : j < l.length, f l[j] (argMin n ext) = rowMin n ext ∧
      g l[j] (argMin n ext) = co (argMin n ext) ∧
      pos[j]'(hlen ▸ hj) ∈ critPos pos (fun r => npClose (rowMin (r.npts - 1) (f r)) (rowMin n ext)) l := by
  obtain ⟨k1, k2, k3⟩ := argMin_spec n ext
  have hG := rowMin_isLeast n ext
  have hle : ∀ r ∈ l, ∀ i ≤ n, rowMin n ext ≤ f r i := fun r hr i hi =>
    (hG.2 ⟨i, hi, rfl⟩).trans ((hext i).2 (Or.inr ⟨r, hr, rfl⟩))
  have hrow : ∀ r ∈ l, f r (argMin n ext) = rowMin n ext → rowMin n (f r) = rowMin n ext := by
    intro r hr h
    symm
    apply le_antisymm
    · obtain ⟨i, hi, e⟩ := (rowMin_isLeast n (f r)).1
      rw [← e]
      exact hle r hr i hi
    · rw [← h]
      exact (rowMin_isLeast n (f r)).2 ⟨_, k1, rfl⟩
  have hmain : ∃ r ∈ l, f r (argMin n ext) = rowMin n ext ∧
      g r (argMin n ext) = co (argMin n ext) := by
    by_cases h0 : rowMin n ext = 0
    · have hz : ext 0 = rowMin n ext := by
        apply le_antisymm _ (hG.2 ⟨0, by omega, rfl⟩)
        rw [h0]
        exact (hext 0).2 (Or.inl rfl)
      have hk : argMin n ext = 0 := by
        by_contra hk
        have := k3 0 (by omega)
        rw [hz] at this
        exact lt_irrefl _ this
      obtain ⟨r, hr⟩ := List.exists_mem_of_ne_nil l hne
      refine ⟨r, hr, ?_, ?_⟩
      · rw [hk, (hpad r hr).1, h0]
      · rw [hk, (hpad r hr).2, (hco 0).2 (hz.trans h0)]
    · obtain ⟨r, hr, e1, e2⟩ := (hco (argMin n ext)).1 (by rw [k2]; exact h0)
      exact ⟨r, hr, e1.trans k2, e2⟩
  refine ⟨hle, k1, ?_⟩
  obtain ⟨r, hr, e1, e2⟩ := hmain
  obtain ⟨j, hj, rfl⟩ := List.getElem_of_mem hr
  refine ⟨j, hj, e1, e2, ?_⟩
  rw [mem_critPos pos _ l hlen]
  refine ⟨j, hj, rfl, ?_⟩
  rw [decide_eq_true_eq, hn _ hr, hrow _ hr e1]
  exact npClose_self _


/-- What `critical_values` should report about an effect `f` with coincident effect `g`, the
value being an upper (`le a b` is `a ≤ b`) or lower bound: the value bounds the effect in every
result and station; and one result attains it at the reported coordinate with the reported
coincident value, its vehicle position being among those reported. -/
def Crit.Holds (l : List (EnvRes K)) (pos : List K) (n : ℕ) (x : ℕ → K) (f g : EnvRes K → ℕ → K)
    (le : K → K → Prop) (c : Crit K) : Prop :=
  (∀ r ∈ l, ∀ i < n, le (f r i) c.val) ∧
  ∃ k < n, c.at_ = x k ∧ ∃ (j : ℕ) (r : EnvRes K) (p : K), l[j]? = some r ∧ pos[j]? = some p ∧
    f r k = c.val ∧ g r k = c.co ∧ p ∈ c.pos

/-- Every reported position belongs to a result whose own extreme is within NumPy's default
tolerances of the reported value. -/
def Crit.PosNear (l : List (EnvRes K)) (pos : List K) (own : EnvRes K → K) (c : Crit K) : Prop :=
  ∀ p ∈ c.pos, ∃ (j : ℕ) (r : EnvRes K), l[j]? = some r ∧ pos[j]? = some p ∧
    |own r - c.val| ≤ 1 / 10 ^ 8 + 1 / 10 ^ 5 * |c.val|

/-- **C59**, partial — the critical values of an envelope of the run's own results (each
starting with a padding station without moment and shear, see `envRes_padding`): moments and
shears are the extremes of the run, the coordinate and the coincident value belong to a result
attaining them, and that result's vehicle position is reported.  Missing: other positions are
reported when their extremes are only close to it (`C59_position_violation`). -/
theorem C59_critical_partial (l : List (EnvRes K)) (pos : List K) (e : Envelope K)
    (h : Envelope.new l = .ok e) (hlen : pos.length = l.length) (hn : 0 < e.npts)
    (hpad : ∀ r ∈ l, r.M 0 = 0 ∧ r.V 0 = 0) :
    ∃ c1 c2 c3 c4, criticalVM l pos e = .ok (c1, c2, c3, c4) ∧
      c1.Holds l pos e.npts e.x EnvRes.M EnvRes.V (· ≤ ·) ∧
      c2.Holds l pos e.npts e.x EnvRes.M EnvRes.V (· ≥ ·) ∧
      c3.Holds l pos e.npts e.x EnvRes.V EnvRes.M (· ≤ ·) ∧
      c4.Holds l pos e.npts e.x EnvRes.V EnvRes.M (· ≥ ·) ∧
      c1.PosNear l pos (fun r => rowMax (r.npts - 1) r.M) ∧
      c2.PosNear l pos (fun r => rowMin (r.npts - 1) r.M) ∧
      c3.PosNear l pos (fun r => rowMax (r.npts - 1) r.V) ∧
      c4.PosNear l pos (fun r => rowMin (r.npts - 1) r.V) := by
  have hne : l ≠ [] := by rintro rfl; cases h
  obtain ⟨hs, -, -, hpts⟩ := Envelope.new_spec h
  have hext := (C28_envelope_attained l e h).1
  have hco := C29_coincident l e h
  have hn' : ∀ r ∈ l, r.npts - 1 = e.npts - 1 := fun r hr => by rw [(hpts r hr).1]
  have hpad' : ∀ r ∈ l, r.V 0 = 0 ∧ r.M 0 = 0 := fun r hr => (hpad r hr).symm
  obtain ⟨a1, a2, j1, hj1, a3, a4, a5⟩ := critMax l pos (e.npts - 1) EnvRes.M EnvRes.V e.Mmax
    e.VcoMmax hne hlen hn' (fun i => (hext i).1) (fun i => (hco i).1) hpad
  obtain ⟨b1, b2, j2, hj2, b3, b4, b5⟩ := critMin l pos (e.npts - 1) EnvRes.M EnvRes.V e.Mmin
    e.VcoMmin hne hlen hn' (fun i => (hext i).2.1) (fun i => (hco i).2.1) hpad
  obtain ⟨c1, c2, j3, hj3, c3, c4, c5⟩ := critMax l pos (e.npts - 1) EnvRes.V EnvRes.M e.Vmax
    e.McoVmax hne hlen hn' (fun i => (hext i).2.2.1) (fun i => (hco i).2.2.1) hpad'
  obtain ⟨d1, d2, j4, hj4, d3, d4, d5⟩ := critMin l pos (e.npts - 1) EnvRes.V EnvRes.M e.Vmin
    e.McoVmin hne hlen hn' (fun i => (hext i).2.2.2) (fun i => (hco i).2.2.2) hpad'
  have hnear : ∀ (own : EnvRes K → K) (c : Crit K),
      c.pos = critPos pos (fun r => npClose (own r) c.val) l → c.PosNear l pos own := by
    intro own c hc p hp
    rw [hc, mem_critPos pos _ l hlen] at hp
    obtain ⟨j, hj, e1, e2⟩ := hp
    refine ⟨j, l[j], List.getElem?_eq_getElem hj, ?_, of_decide_eq_true e2⟩
    rw [List.getElem?_eq_getElem (hlen ▸ hj), e1]
  have hok : criticalVM l pos e = .ok
      (⟨rowMax (e.npts - 1) e.Mmax, e.x (argMax (e.npts - 1) e.Mmax), critPos pos (fun r =>
          npClose (rowMax (r.npts - 1) r.M) (rowMax (e.npts - 1) e.Mmax)) l,
          e.VcoMmax (argMax (e.npts - 1) e.Mmax)⟩,
        ⟨rowMin (e.npts - 1) e.Mmin, e.x (argMin (e.npts - 1) e.Mmin), critPos pos (fun r =>
          npClose (rowMin (r.npts - 1) r.M) (rowMin (e.npts - 1) e.Mmin)) l,
          e.VcoMmin (argMin (e.npts - 1) e.Mmin)⟩,
        ⟨rowMax (e.npts - 1) e.Vmax, e.x (argMax (e.npts - 1) e.Vmax), critPos pos (fun r =>
          npClose (rowMax (r.npts - 1) r.V) (rowMax (e.npts - 1) e.Vmax)) l,
          e.McoVmax (argMax (e.npts - 1) e.Vmax)⟩,
        ⟨rowMin (e.npts - 1) e.Vmin, e.x (argMin (e.npts - 1) e.Vmin), critPos pos (fun r =>
          npClose (rowMin (r.npts - 1) r.V) (rowMin (e.npts - 1) e.Vmin)) l,
          e.McoVmin (argMin (e.npts - 1) e.Vmin)⟩) := by
    unfold criticalVM
    simp only
    rw [if_neg]
    rintro (h | h | h | h)
    · rw [h] at a5; cases a5
    · rw [h] at b5; cases b5
    · rw [h] at c5; cases c5
    · rw [h] at d5; cases d5
  refine ⟨_, _, _, _, hok, ?_, ?_, ?_, ?_, hnear _ _ rfl, hnear _ _ rfl, hnear _ _ rfl,
    hnear _ _ rfl⟩
  · exact ⟨fun r hr i hi => a1 r hr i (by omega), _, by omega, rfl, j1, l[j1], pos[j1]'(hlen ▸ hj1),
      List.getElem?_eq_getElem hj1, List.getElem?_eq_getElem _, a3, a4, a5⟩
  · exact ⟨fun r hr i hi => b1 r hr i (by omega), _, by omega, rfl, j2, l[j2], pos[j2]'(hlen ▸ hj2),
      List.getElem?_eq_getElem hj2, List.getElem?_eq_getElem _, b3, b4, b5⟩
  · exact ⟨fun r hr i hi => c1 r hr i (by omega), _, by omega, rfl, j3, l[j3], pos[j3]'(hlen ▸ hj3),
      List.getElem?_eq_getElem hj3, List.getElem?_eq_getElem _, c3, c4, c5⟩
  · exact ⟨fun r hr i hi => d1 r hr i (by omega), _, by omega, rfl, j4, l[j4], pos[j4]'(hlen ▸ hj4),
      List.getElem?_eq_getElem hj4, List.getElem?_eq_getElem _, d3, d4, d5⟩

/-- **C59**, reactions — the value is the extreme over the run and the unloaded state; when it
is not zero, the reported position is that of a result attaining it. -/
theorem C59_reactions (l : List (EnvRes K)) (pos : List K) (e : Envelope K)
    (h : Envelope.new l = .ok e) (hlen : pos.length = l.length) (j : ℕ) :
    IsGreatest ({0} ∪ {y | ∃ r ∈ l, r.R j = y}) (criticalR pos e j).1.1 ∧
    IsLeast ({0} ∪ {y | ∃ r ∈ l, r.R j = y}) (criticalR pos e j).2.1 ∧
    ((criticalR pos e j).1.1 ≠ 0 → ∃ (i : ℕ) (r : EnvRes K), l[i]? = some r ∧ r.R j = (criticalR pos e j).1.1 ∧
      pos[i]? = (criticalR pos e j).1.2) ∧
    ((criticalR pos e j).2.1 ≠ 0 → ∃ (i : ℕ) (r : EnvRes K), l[i]? = some r ∧ r.R j = (criticalR pos e j).2.1 ∧
      pos[i]? = (criticalR pos e j).2.2) := by
  have hne : l ≠ [] := by rintro rfl; cases h
  have hl0 : 0 < l.length := List.length_pos_of_ne_nil hne
  obtain ⟨-, hres, hR, -⟩ := Envelope.new_spec h
  simp only [criticalR, hres]
  obtain ⟨p1, p2, -⟩ := argMax_spec (l.length - 1) (e.Rmax j)
  obtain ⟨q1, q2, -⟩ := argMin_spec (l.length - 1) (e.Rmin j)
  obtain ⟨⟨i, hi, hG1⟩, hG2⟩ := rowMax_isGreatest (l.length - 1) (e.Rmax j)
  obtain ⟨⟨i', hi', hL1⟩, hL2⟩ := rowMin_isLeast (l.length - 1) (e.Rmin j)
  refine ⟨⟨?_, ?_⟩, ⟨?_, ?_⟩, ?_, ?_⟩
  · rw [← hG1, (hR j i (by omega)).1]
    rcases le_total 0 (l[i].R j) with h | h
    · rw [max_eq_right h]; exact Or.inr ⟨_, List.getElem_mem (by omega), rfl⟩
    · rw [max_eq_left h]; exact Or.inl rfl
  · rintro y (rfl | ⟨r, hr, rfl⟩)
    · refine le_trans ?_ (hG2 ⟨0, by omega, rfl⟩)
      rw [(hR j 0 hl0).1]
      exact le_max_left _ _
    · obtain ⟨k, hk, rfl⟩ := List.getElem_of_mem hr
      refine le_trans ?_ (hG2 ⟨k, by omega, rfl⟩)
      rw [(hR j k hk).1]
      exact le_max_right _ _
  · rw [← hL1, (hR j i' (by omega)).2]
    rcases le_total 0 (l[i'].R j) with h | h
    · rw [min_eq_left h]; exact Or.inl rfl
    · rw [min_eq_right h]; exact Or.inr ⟨_, List.getElem_mem (by omega), rfl⟩
  · rintro y (rfl | ⟨r, hr, rfl⟩)
    · refine (hL2 ⟨0, by omega, rfl⟩).trans ?_
      rw [(hR j 0 hl0).2]
      exact min_le_left _ _
    · obtain ⟨k, hk, rfl⟩ := List.getElem_of_mem hr
      refine (hL2 ⟨k, by omega, rfl⟩).trans ?_
      rw [(hR j k hk).2]
      exact min_le_right _ _
  · intro h0
    have hlt : argMax (l.length - 1) (e.Rmax j) < l.length := by omega
    refine ⟨_, _, List.getElem?_eq_getElem hlt, ?_, rfl⟩
    rw [← p2] at h0 ⊢
    rw [(hR j _ hlt).1] at h0 ⊢
    rcases le_total 0 (l[argMax (l.length - 1) (e.Rmax j)].R j) with h | h
    · exact (max_eq_right h).symm
    · exact absurd (max_eq_left h) h0
  · intro h0
    have hlt : argMin (l.length - 1) (e.Rmin j) < l.length := by omega
    refine ⟨_, _, List.getElem?_eq_getElem hlt, ?_, rfl⟩
    rw [← q2] at h0 ⊢
    rw [(hR j _ hlt).2] at h0 ⊢
    rcases le_total 0 (l[argMin (l.length - 1) (e.Rmin j)].R j) with h | h
    · exact absurd (min_eq_left h) h0
    · exact (min_eq_right h).symm

/-- What an envelope reads of the member results `rs` (`results.py` 96-114). -/
def EnvRes.ofResults (rs : List (MRes K)) (nsup : ℕ) (R : ℕ → K) : EnvRes K where
  npts := (concatResults rs MRes.x).length
  x := fun k => (concatResults rs MRes.x).getD k 0
  V := fun k => (concatResults rs MRes.V).getD k 0
  M := fun k => (concatResults rs MRes.M).getD k 0
  nsup := nsup
  R := R
  counts := rs.map MRes.n

/-- The results of a beam start with a padding station without moment and shear. -/
theorem envRes_padding (b : BeamDef K) (res : Result K) (npts : ℕ) (sp : ℕ → List K)
    (rs : List (MRes K)) (h : b.memberResults res npts sp = .ok rs) (hb : b.members ≠ [])
    (nsup : ℕ) (R : ℕ → K) :
    (EnvRes.ofResults rs nsup R).M 0 = 0 ∧ (EnvRes.ofResults rs nsup R).V 0 = 0 ∧
      0 < (EnvRes.ofResults rs nsup R).npts := by
  have hl := List.length_pos_of_ne_nil hb
  obtain ⟨hlen, ls, hls, hv⟩ := BeamDef.memberResults_ok h
  obtain ⟨c, -, e⟩ := hv 0 hl (by omega)
  obtain ⟨r, rs', rfl⟩ := List.exists_cons_of_ne_nil (List.ne_nil_of_length_pos (hlen ▸ hl))
  rw [List.getElem_cons_zero] at e
  have hn : r.n = c.grid.length + 1 + 1 := by rw [e]; rfl
  have hM : r.M 0 = 0 := by
    rw [e]
    show c.M 0 = 0
    unfold MCtx.M
    exact if_pos (Or.inl rfl)
  have hV : r.V 0 = 0 := by
    rw [e]
    show c.V 0 = 0
    unfold MCtx.V
    exact if_pos (Or.inl rfl)
  simp only [EnvRes.ofResults, concatResults, List.flatMap_cons, MRes.list, hn,
    List.range_succ_eq_map, List.map_cons, List.cons_append, List.getD_cons_zero, hM, hV]
  simp

/-- Two results of three stations: one moment peak of 1000000 and one of 999999. -/
def exRun : List (EnvRes ℚ) :=
  [⟨3, fun k => k, fun _ => 0, fun k => if k = 1 then 1000000 else 0, 0, fun _ => 0, [3]⟩,
   ⟨3, fun k => k, fun _ => 0, fun k => if k = 1 then 999999 else 0, 0, fun _ => 0, [3]⟩]

theorem exRun_crit : ∃ e : Envelope ℚ, Envelope.new exRun = .ok e ∧ 0 < e.npts ∧
    (criticalVM exRun [5, 6] e).toOption.map (fun c => (c.1.val, c.1.at_, c.1.pos)) =
      some (1000000, 1, [5, 6]) := by
  refine ⟨_, rfl, by decide, by decide +kernel⟩

/-- **C59 fails** for the reported positions: both results are reported as giving the maximum
moment of 1000000, but at the second position the moment is nowhere more than 999999. -/
theorem C59_position_violation : ∃ (e : Envelope ℚ) (c1 c2 c3 c4 : Crit ℚ),
    Envelope.new exRun = .ok e ∧ (∀ r ∈ exRun, r.M 0 = 0 ∧ r.V 0 = 0) ∧
    criticalVM exRun [5, 6] e = .ok (c1, c2, c3, c4) ∧ c1.val = 1000000 ∧ c1.pos = [5, 6] ∧
    ∀ r, exRun[1]? = some r → ∀ k, r.M k ≤ 999999 := by
  obtain ⟨e, h1, hn, h2⟩ := exRun_crit
  have hpad : ∀ r ∈ exRun, r.M 0 = 0 ∧ r.V 0 = 0 := by simp [exRun]
  obtain ⟨c1, c2, c3, c4, h3, -⟩ := C59_critical_partial exRun [5, 6] e h1 rfl hn hpad
  rw [h3] at h2
  simp only [Except.toOption, Option.map_some, Option.some.injEq, Prod.mk.injEq] at h2
  refine ⟨e, c1, c2, c3, c4, h1, hpad, h3, h2.1, h2.2.2, ?_⟩
  intro r hr k
  simp only [exRun, List.getElem?_cons_succ, List.getElem?_cons_zero, Option.some.injEq] at hr
  subst hr
  simp only
  split_ifs <;> norm_num

end PyCBA
