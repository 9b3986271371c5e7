import Verif.Envelope.Model
import Mathlib.Data.List.Basic
import Mathlib.Data.List.Induction
import Mathlib.Tactic.Linarith
import Mathlib.Algebra.Order.BigOperators.Group.List
import Mathlib.Algebra.Order.Field.Rat

set_option linter.unusedSectionVars false
set_option linter.unusedSimpArgs false

/-!
Properties of envelopes: C27-C33 and C78.
-/

namespace PyCBA

variable {K : Type*} [Field K] [LinearOrder K] [IsStrictOrderedRing K]

/-! ### Specification -/

/-- `v` is the largest of zero and the values `f r` of the results. -/
def IsMax0 (f : EnvRes K → K) (l : List (EnvRes K)) (v : K) : Prop :=
  IsGreatest ({0} ∪ {y | ∃ r ∈ l, f r = y}) v

/-- `v` is the least of zero and the values `f r` of the results. -/
def IsMin0 (f : EnvRes K → K) (l : List (EnvRes K)) (v : K) : Prop :=
  IsLeast ({0} ∪ {y | ∃ r ∈ l, f r = y}) v

/-- `c` is the value of `g` in a result of `l` whose value of `f` is `v`; it is zero
when `v` is zero. -/
def Coincident (f g : EnvRes K → K) (l : List (EnvRes K)) (v c : K) : Prop :=
  (v ≠ 0 → ∃ r ∈ l, f r = v ∧ g r = c) ∧ (v = 0 → c = 0)

/-! ### Lemmas -/

theorem IsMax0.unique {f : EnvRes K → K} {l l' : List (EnvRes K)} {v v' : K}
    (h : IsMax0 f l v) (h' : IsMax0 f l' v') (hll : ∀ r, r ∈ l ↔ r ∈ l') : v = v' := by
  have : ({0} ∪ {y | ∃ r ∈ l, f r = y} : Set K) = {0} ∪ {y | ∃ r ∈ l', f r = y} := by
    ext y; simp [hll]
  unfold IsMax0 at h h'
  rw [this] at h
  exact h.unique h'

theorem IsMin0.unique {f : EnvRes K → K} {l l' : List (EnvRes K)} {v v' : K}
    (h : IsMin0 f l v) (h' : IsMin0 f l' v') (hll : ∀ r, r ∈ l ↔ r ∈ l') : v = v' := by
  have : ({0} ∪ {y | ∃ r ∈ l, f r = y} : Set K) = {0} ∪ {y | ∃ r ∈ l', f r = y} := by
    ext y; simp [hll]
  unfold IsMin0 at h h'
  rw [this] at h
  exact h.unique h'

theorem IsMax0.nil (f : EnvRes K → K) : IsMax0 f [] 0 := by
  constructor <;> simp [upperBounds]

theorem IsMin0.nil (f : EnvRes K → K) : IsMin0 f [] 0 := by
  constructor <;> simp [lowerBounds]

theorem IsMax0.le {f : EnvRes K → K} {l : List (EnvRes K)} {v : K} (h : IsMax0 f l v)
    {r : EnvRes K} (hr : r ∈ l) : f r ≤ v := h.2 (Or.inr ⟨r, hr, rfl⟩)

theorem IsMax0.nonneg {f : EnvRes K → K} {l : List (EnvRes K)} {v : K} (h : IsMax0 f l v) :
    0 ≤ v := h.2 (Or.inl rfl)

theorem IsMin0.le {f : EnvRes K → K} {l : List (EnvRes K)} {v : K} (h : IsMin0 f l v)
    {r : EnvRes K} (hr : r ∈ l) : v ≤ f r := h.2 (Or.inr ⟨r, hr, rfl⟩)

theorem IsMin0.nonpos {f : EnvRes K → K} {l : List (EnvRes K)} {v : K} (h : IsMin0 f l v) :
    v ≤ 0 := h.2 (Or.inl rfl)

/-- One more result: the strict comparison keeps the extreme and its companion. -/
theorem max_step {f g : EnvRes K → K} {l : List (EnvRes K)} {v c : K} (hv : IsMax0 f l v)
    (hc : Coincident f g l v c) (r : EnvRes K) :
    IsMax0 f (l ++ [r]) (if decide (f r > v) then f r else v) ∧
      Coincident f g (l ++ [r]) (if decide (f r > v) then f r else v)
        (if decide (f r > v) then g r else c) := by
  by_cases h : f r > v
  · simp only [h, decide_true, if_true]
    refine ⟨⟨Or.inr ⟨r, by simp, rfl⟩, ?_⟩, fun _ => ⟨r, by simp, rfl, rfl⟩, fun h0 => ?_⟩
    · rintro y (rfl | ⟨s, hs, rfl⟩)
      · exact (hv.nonneg.trans h.le)
      · rcases List.mem_append.1 hs with hs | hs
        · exact (hv.le hs).trans h.le
        · rw [List.mem_singleton.1 hs]
    · exact absurd (h.lt.trans_le (le_of_eq h0)) (not_lt.2 hv.nonneg)
  · simp only [h, decide_false, Bool.false_eq_true, if_false]
    refine ⟨⟨?_, ?_⟩, fun hne => ?_, hc.2⟩
    · rcases hv.1 with h0 | ⟨s, hs, h1⟩
      · exact Or.inl h0
      · exact Or.inr ⟨s, by simp [hs], h1⟩
    · rintro y (rfl | ⟨s, hs, rfl⟩)
      · exact hv.nonneg
      · rcases List.mem_append.1 hs with hs | hs
        · exact hv.le hs
        · rw [List.mem_singleton.1 hs]
          exact not_lt.1 h
    · obtain ⟨s, hs, h1⟩ := hc.1 hne
      exact ⟨s, by simp [hs], h1⟩

theorem min_step {f g : EnvRes K → K} {l : List (EnvRes K)} {v c : K} (hv : IsMin0 f l v)
    (hc : Coincident f g l v c) (r : EnvRes K) :
    IsMin0 f (l ++ [r]) (if decide (f r < v) then f r else v) ∧
      Coincident f g (l ++ [r]) (if decide (f r < v) then f r else v)
        (if decide (f r < v) then g r else c) := by
  by_cases h : f r < v
  · simp only [h, decide_true, if_true]
    refine ⟨⟨Or.inr ⟨r, by simp, rfl⟩, ?_⟩, fun _ => ⟨r, by simp, rfl, rfl⟩, fun h0 => ?_⟩
    · rintro y (rfl | ⟨s, hs, rfl⟩)
      · exact (h.le.trans hv.nonpos)
      · rcases List.mem_append.1 hs with hs | hs
        · exact h.le.trans (hv.le hs)
        · rw [List.mem_singleton.1 hs]
    · exact absurd (h0.symm.le.trans_lt h) (not_lt.2 hv.nonpos)
  · simp only [h, decide_false, Bool.false_eq_true, if_false]
    refine ⟨⟨?_, ?_⟩, fun hne => ?_, hc.2⟩
    · rcases hv.1 with h0 | ⟨s, hs, h1⟩
      · exact Or.inl h0
      · exact Or.inr ⟨s, by simp [hs], h1⟩
    · rintro y (rfl | ⟨s, hs, rfl⟩)
      · exact hv.nonpos
      · rcases List.mem_append.1 hs with hs | hs
        · exact hv.le hs
        · rw [List.mem_singleton.1 hs]
          exact not_lt.1 h
    · obtain ⟨s, hs, h1⟩ := hc.1 hne
      exact ⟨s, by simp [hs], h1⟩

/-- Everything the arrays of `_get_envelopes_VM` should be. -/
structure VMSpec (l : List (EnvRes K)) (a : VMArrays K) (i : ℕ) : Prop where
  Mmax : IsMax0 (fun r => r.M i) l (a.Mmax i)
  Mmin : IsMin0 (fun r => r.M i) l (a.Mmin i)
  Vmax : IsMax0 (fun r => r.V i) l (a.Vmax i)
  Vmin : IsMin0 (fun r => r.V i) l (a.Vmin i)
  VcoMmax : Coincident (fun r => r.M i) (fun r => r.V i) l (a.Mmax i) (a.VcoMmax i)
  VcoMmin : Coincident (fun r => r.M i) (fun r => r.V i) l (a.Mmin i) (a.VcoMmin i)
  McoVmax : Coincident (fun r => r.V i) (fun r => r.M i) l (a.Vmax i) (a.McoVmax i)
  McoVmin : Coincident (fun r => r.V i) (fun r => r.M i) l (a.Vmin i) (a.McoVmin i)

theorem envelopesVM_spec (l : List (EnvRes K)) (i : ℕ) : VMSpec l (envelopesVM l) i := by
  induction l using List.reverseRecOn with
  | nil =>
    have hc : ∀ f g : EnvRes K → K, Coincident f g [] 0 0 :=
      fun f g => ⟨fun h => absurd rfl h, fun _ => rfl⟩
    exact ⟨IsMax0.nil _, IsMin0.nil _, IsMax0.nil _, IsMin0.nil _, hc _ _, hc _ _, hc _ _, hc _ _⟩
  | append_singleton l r ih =>
    have h1 := max_step ih.Mmax ih.VcoMmax r
    have h2 := min_step ih.Mmin ih.VcoMmin r
    have h3 := max_step ih.Vmax ih.McoVmax r
    have h4 := min_step ih.Vmin ih.McoVmin r
    have e : envelopesVM (l ++ [r]) = vmStep (envelopesVM l) r := by
      simp [envelopesVM, List.foldl_append]
    rw [e]
    exact ⟨h1.1, h2.1, h3.1, h4.1, h1.2, h2.2, h3.2, h4.2⟩

theorem rowMax_isGreatest (n : ℕ) (a : ℕ → K) :
    IsGreatest {y | ∃ i ≤ n, a i = y} (rowMax n a) := by
  induction n with
  | zero =>
    refine ⟨⟨0, le_rfl, by simp [rowMax]⟩, ?_⟩
    rintro y ⟨i, hi, rfl⟩
    simp [rowMax, Nat.le_zero.1 hi]
  | succ n ih =>
    have e : rowMax (n + 1) a = max (rowMax n a) (a (n + 1)) := by
      simp [rowMax, List.range_succ, List.foldl_append]
    rw [e]
    constructor
    · rcases le_total (rowMax n a) (a (n + 1)) with h | h
      · rw [max_eq_right h]; exact ⟨n + 1, le_rfl, rfl⟩
      · rw [max_eq_left h]
        obtain ⟨i, hi, h1⟩ := ih.1
        exact ⟨i, by omega, h1⟩
    · rintro y ⟨i, hi, rfl⟩
      rcases Nat.lt_or_ge n i with h | h
      · have : i = n + 1 := by omega
        rw [this]; exact le_max_right _ _
      · exact (ih.2 ⟨i, h, rfl⟩).trans (le_max_left _ _)

theorem rowMin_isLeast (n : ℕ) (a : ℕ → K) :
    IsLeast {y | ∃ i ≤ n, a i = y} (rowMin n a) := by
  induction n with
  | zero =>
    refine ⟨⟨0, le_rfl, by simp [rowMin]⟩, ?_⟩
    rintro y ⟨i, hi, rfl⟩
    simp [rowMin, Nat.le_zero.1 hi]
  | succ n ih =>
    have e : rowMin (n + 1) a = min (rowMin n a) (a (n + 1)) := by
      simp [rowMin, List.range_succ, List.foldl_append]
    rw [e]
    constructor
    · rcases le_total (rowMin n a) (a (n + 1)) with h | h
      · rw [min_eq_left h]
        obtain ⟨i, hi, h1⟩ := ih.1
        exact ⟨i, by omega, h1⟩
      · rw [min_eq_right h]; exact ⟨n + 1, le_rfl, rfl⟩
    · rintro y ⟨i, hi, rfl⟩
      rcases Nat.lt_or_ge n i with h | h
      · have : i = n + 1 := by omega
        rw [this]; exact min_le_right _ _
      · exact (min_le_left _ _).trans (ih.2 ⟨i, h, rfl⟩)

/-- Everything an `Envelopes` object made from the results `l` should hold. -/
structure EnvSpec (l : List (EnvRes K)) (e : Envelope K) : Prop where
  vm : ∀ i, VMSpec l ⟨e.Vmax, e.Vmin, e.Mmax, e.Mmin, e.VcoMmax, e.VcoMmin, e.McoVmax, e.McoVmin⟩ i
  Rmaxval : ∀ j, IsMax0 (fun r => r.R j) l (e.Rmaxval j)
  Rminval : ∀ j, IsMin0 (fun r => r.R j) l (e.Rminval j)

theorem rmaxval_spec (r0 : EnvRes K) (rs : List (EnvRes K)) (j : ℕ) :
    IsMax0 (fun r => r.R j) (r0 :: rs) (rowMax rs.length (envelopeRmax (r0 :: rs) j)) := by
  obtain ⟨⟨i, hi, h1⟩, h2⟩ := rowMax_isGreatest rs.length (envelopeRmax (r0 :: rs) j)
  have hlen : i < (r0 :: rs).length := by simp; omega
  have hget : ∀ k (hk : k < (r0 :: rs).length),
      envelopeRmax (r0 :: rs) j k = max 0 ((r0 :: rs)[k].R j) := by
    intro k hk
    simp only [envelopeRmax, List.getElem?_eq_getElem hk]
  constructor
  · rw [← h1, hget i hlen]
    rcases le_total 0 ((r0 :: rs)[i].R j) with h | h
    · rw [max_eq_right h]
      exact Or.inr ⟨_, List.getElem_mem hlen, rfl⟩
    · rw [max_eq_left h]
      exact Or.inl rfl
  · rintro y (rfl | ⟨r, hr, rfl⟩)
    · refine le_trans ?_ (h2 ⟨0, by omega, rfl⟩)
      rw [hget 0 (by simp)]
      exact le_max_left _ _
    · obtain ⟨k, hk, rfl⟩ := List.getElem_of_mem hr
      refine le_trans ?_ (h2 ⟨k, by simp at hk; omega, rfl⟩)
      rw [hget k hk]
      exact le_max_right _ _

theorem rminval_spec (r0 : EnvRes K) (rs : List (EnvRes K)) (j : ℕ) :
    IsMin0 (fun r => r.R j) (r0 :: rs) (rowMin rs.length (envelopeRmin (r0 :: rs) j)) := by
  obtain ⟨⟨i, hi, h1⟩, h2⟩ := rowMin_isLeast rs.length (envelopeRmin (r0 :: rs) j)
  have hlen : i < (r0 :: rs).length := by simp; omega
  have hget : ∀ k (hk : k < (r0 :: rs).length),
      envelopeRmin (r0 :: rs) j k = min 0 ((r0 :: rs)[k].R j) := by
    intro k hk
    simp only [envelopeRmin, List.getElem?_eq_getElem hk]
  constructor
  · rw [← h1, hget i hlen]
    rcases le_total 0 ((r0 :: rs)[i].R j) with h | h
    · rw [min_eq_left h]
      exact Or.inl rfl
    · rw [min_eq_right h]
      exact Or.inr ⟨_, List.getElem_mem hlen, rfl⟩
  · rintro y (rfl | ⟨r, hr, rfl⟩)
    · refine (h2 ⟨0, by omega, rfl⟩).trans ?_
      rw [hget 0 (by simp)]
      exact min_le_left _ _
    · obtain ⟨k, hk, rfl⟩ := List.getElem_of_mem hr
      refine (h2 ⟨k, by simp at hk; omega, rfl⟩).trans ?_
      rw [hget k hk]
      exact min_le_right _ _

theorem Envelope.new_spec {l : List (EnvRes K)} {e : Envelope K} (h : Envelope.new l = .ok e) :
    EnvSpec l e ∧ e.nres = l.length ∧
      (∀ j i (hi : i < l.length), e.Rmax j i = max 0 (l[i].R j) ∧ e.Rmin j i = min 0 (l[i].R j)) ∧
      ∀ r ∈ l, r.npts = e.npts ∧ r.nsup = e.nsup := by
  cases l with
  | nil => cases h
  | cons r0 rs =>
    simp only [Envelope.new] at h
    split at h
    · rename_i hall
      cases h
      refine ⟨⟨fun i => envelopesVM_spec _ i, fun j => rmaxval_spec r0 rs j,
        fun j => rminval_spec r0 rs j⟩, rfl, ?_, ?_⟩
      · intro j i hi
        simp only [envelopeRmax, envelopeRmin, List.getElem?_eq_getElem hi]
        exact ⟨trivial, trivial⟩
      · intro r hr
        simpa using List.all_eq_true.1 hall r hr
    · cases h

/-! ## C27, C28, C29, C30 -/

/-- **C27**: an envelope bounds every result it was made from. -/
theorem C27_envelope_bounds (l : List (EnvRes K)) (e : Envelope K) (h : Envelope.new l = .ok e)
    (r : EnvRes K) (hr : r ∈ l) :
    (∀ i, e.Mmin i ≤ r.M i ∧ r.M i ≤ e.Mmax i ∧ e.Vmin i ≤ r.V i ∧ r.V i ≤ e.Vmax i) ∧
    ∀ j, e.Rminval j ≤ r.R j ∧ r.R j ≤ e.Rmaxval j := by
  obtain ⟨hs, _⟩ := Envelope.new_spec h
  exact ⟨fun i => ⟨(hs.vm i).Mmin.le hr, (hs.vm i).Mmax.le hr, (hs.vm i).Vmin.le hr,
    (hs.vm i).Vmax.le hr⟩, fun j => ⟨(hs.Rminval j).le hr, (hs.Rmaxval j).le hr⟩⟩

/-- **C28**: each extreme is the extreme over the results and the unloaded state. -/
theorem C28_envelope_attained (l : List (EnvRes K)) (e : Envelope K) (h : Envelope.new l = .ok e) :
    (∀ i, IsGreatest ({0} ∪ {y | ∃ r ∈ l, r.M i = y}) (e.Mmax i) ∧
      IsLeast ({0} ∪ {y | ∃ r ∈ l, r.M i = y}) (e.Mmin i) ∧
      IsGreatest ({0} ∪ {y | ∃ r ∈ l, r.V i = y}) (e.Vmax i) ∧
      IsLeast ({0} ∪ {y | ∃ r ∈ l, r.V i = y}) (e.Vmin i)) ∧
    ∀ j, IsGreatest ({0} ∪ {y | ∃ r ∈ l, r.R j = y}) (e.Rmaxval j) ∧
      IsLeast ({0} ∪ {y | ∃ r ∈ l, r.R j = y}) (e.Rminval j) := by
  obtain ⟨hs, _⟩ := Envelope.new_spec h
  exact ⟨fun i => ⟨(hs.vm i).Mmax, (hs.vm i).Mmin, (hs.vm i).Vmax, (hs.vm i).Vmin⟩,
    fun j => ⟨hs.Rmaxval j, hs.Rminval j⟩⟩

/-- **C29**: the coincident value reported with a nonzero extreme is that of a result
attaining the extreme there; with a zero extreme it is zero. -/
theorem C29_coincident (l : List (EnvRes K)) (e : Envelope K) (h : Envelope.new l = .ok e) (i : ℕ) :
    ((e.Mmax i ≠ 0 → ∃ r ∈ l, r.M i = e.Mmax i ∧ r.V i = e.VcoMmax i) ∧
      (e.Mmax i = 0 → e.VcoMmax i = 0)) ∧
    ((e.Mmin i ≠ 0 → ∃ r ∈ l, r.M i = e.Mmin i ∧ r.V i = e.VcoMmin i) ∧
      (e.Mmin i = 0 → e.VcoMmin i = 0)) ∧
    ((e.Vmax i ≠ 0 → ∃ r ∈ l, r.V i = e.Vmax i ∧ r.M i = e.McoVmax i) ∧
      (e.Vmax i = 0 → e.McoVmax i = 0)) ∧
    ((e.Vmin i ≠ 0 → ∃ r ∈ l, r.V i = e.Vmin i ∧ r.M i = e.McoVmin i) ∧
      (e.Vmin i = 0 → e.McoVmin i = 0)) := by
  obtain ⟨hs, _⟩ := Envelope.new_spec h
  exact ⟨(hs.vm i).VcoMmax, (hs.vm i).VcoMmin, (hs.vm i).McoVmax, (hs.vm i).McoVmin⟩

/-- Two envelopes with the same extremes. -/
def SameExtremes (e e' : Envelope K) : Prop :=
  (∀ i, e.Mmax i = e'.Mmax i ∧ e.Mmin i = e'.Mmin i ∧ e.Vmax i = e'.Vmax i ∧ e.Vmin i = e'.Vmin i) ∧
    ∀ j, e.Rmaxval j = e'.Rmaxval j ∧ e.Rminval j = e'.Rminval j

theorem EnvSpec.sameExtremes {l l' : List (EnvRes K)} {e e' : Envelope K} (h : EnvSpec l e)
    (h' : EnvSpec l' e') (hll : ∀ r, r ∈ l ↔ r ∈ l') : SameExtremes e e' :=
  ⟨fun i => ⟨(h.vm i).Mmax.unique (h'.vm i).Mmax hll, (h.vm i).Mmin.unique (h'.vm i).Mmin hll,
    (h.vm i).Vmax.unique (h'.vm i).Vmax hll, (h.vm i).Vmin.unique (h'.vm i).Vmin hll⟩,
    fun j => ⟨(h.Rmaxval j).unique (h'.Rmaxval j) hll, (h.Rminval j).unique (h'.Rminval j) hll⟩⟩

/-- **C30**: the order of the results does not affect the extremes, and reordering
permutes the reaction history. -/
theorem C30_order_irrelevant (l l' : List (EnvRes K)) (hp : l.Perm l') (e e' : Envelope K)
    (h : Envelope.new l = .ok e) (h' : Envelope.new l' = .ok e') :
    SameExtremes e e' ∧ ∀ j, ((List.range e.nres).map (e.Rmax j)).Perm
      ((List.range e'.nres).map (e'.Rmax j)) := by
  obtain ⟨hs, hn, hR, _⟩ := Envelope.new_spec h
  obtain ⟨hs', hn', hR', _⟩ := Envelope.new_spec h'
  refine ⟨hs.sameExtremes hs' fun r => hp.mem_iff, fun j => ?_⟩
  have key : ∀ (l : List (EnvRes K)) (e : Envelope K), e.nres = l.length →
      (∀ j i (hi : i < l.length), e.Rmax j i = max 0 (l[i].R j) ∧ e.Rmin j i = min 0 (l[i].R j)) →
      (List.range e.nres).map (e.Rmax j) = l.map fun r => max 0 (r.R j) := by
    intro l e hn hR
    apply List.ext_getElem
    · simp [hn]
    · intro k h1 h2
      simp only [List.length_map] at h2
      simp [(hR j k h2).1]
  rw [key l e hn hR, key l' e' hn' hR']
  exact hp.map _

/-! ## C31 -/

theorem IsMax0.append {f : EnvRes K → K} {l l' : List (EnvRes K)} {v v' : K}
    (h : IsMax0 f l v) (h' : IsMax0 f l' v') : IsMax0 f (l ++ l') (max v v') := by
  constructor
  · rcases le_total v v' with hle | hle
    · rw [max_eq_right hle]
      rcases h'.1 with h0 | ⟨r, hr, h1⟩
      · exact Or.inl h0
      · exact Or.inr ⟨r, by simp [hr], h1⟩
    · rw [max_eq_left hle]
      rcases h.1 with h0 | ⟨r, hr, h1⟩
      · exact Or.inl h0
      · exact Or.inr ⟨r, by simp [hr], h1⟩
  · rintro y (rfl | ⟨r, hr, rfl⟩)
    · exact h.nonneg.trans (le_max_left _ _)
    · rcases List.mem_append.1 hr with hr | hr
      · exact (h.le hr).trans (le_max_left _ _)
      · exact (h'.le hr).trans (le_max_right _ _)

theorem IsMin0.append {f : EnvRes K → K} {l l' : List (EnvRes K)} {v v' : K}
    (h : IsMin0 f l v) (h' : IsMin0 f l' v') : IsMin0 f (l ++ l') (min v v') := by
  constructor
  · rcases le_total v v' with hle | hle
    · rw [min_eq_left hle]
      rcases h.1 with h0 | ⟨r, hr, h1⟩
      · exact Or.inl h0
      · exact Or.inr ⟨r, by simp [hr], h1⟩
    · rw [min_eq_right hle]
      rcases h'.1 with h0 | ⟨r, hr, h1⟩
      · exact Or.inl h0
      · exact Or.inr ⟨r, by simp [hr], h1⟩
  · rintro y (rfl | ⟨r, hr, rfl⟩)
    · exact (min_le_left _ _).trans h.nonpos
    · rcases List.mem_append.1 hr with hr | hr
      · exact (min_le_left _ _).trans (h.le hr)
      · exact (min_le_right _ _).trans (h'.le hr)

theorem Coincident.mono {f g : EnvRes K → K} {l l' : List (EnvRes K)} {v c : K}
    (h : Coincident f g l v c) (hl : ∀ r ∈ l, r ∈ l') : Coincident f g l' v c :=
  ⟨fun hne => by
    obtain ⟨r, hr, h1⟩ := h.1 hne
    exact ⟨r, hl r hr, h1⟩, h.2⟩

theorem Coincident.append_max {f g : EnvRes K → K} {l l' : List (EnvRes K)} {v v' c c' : K}
    (h : Coincident f g l v c) (h' : Coincident f g l' v' c') :
    Coincident f g (l ++ l') (max v v') (if decide (v' > v) then c' else c) := by
  by_cases hlt : v' > v
  · simp only [hlt, decide_true, if_true, max_eq_right hlt.le]
    exact h'.mono (by simp +contextual)
  · simp only [hlt, decide_false, Bool.false_eq_true, if_false, max_eq_left (not_lt.1 hlt)]
    exact h.mono (by simp +contextual)

theorem Coincident.append_min {f g : EnvRes K → K} {l l' : List (EnvRes K)} {v v' c c' : K}
    (h : Coincident f g l v c) (h' : Coincident f g l' v' c') :
    Coincident f g (l ++ l') (min v v') (if decide (v' < v) then c' else c) := by
  by_cases hlt : v' < v
  · simp only [hlt, decide_true, if_true, min_eq_right hlt.le]
    exact h'.mono (by simp +contextual)
  · simp only [hlt, decide_false, Bool.false_eq_true, if_false, min_eq_left (not_lt.1 hlt)]
    exact h.mono (by simp +contextual)

theorem EnvSpec.augment {l l' : List (EnvRes K)} {e e' o : Envelope K} (h : EnvSpec l e)
    (h' : EnvSpec l' e') (ha : e.augment e' = .ok o) : EnvSpec (l ++ l') o := by
  unfold Envelope.augment at ha
  split at ha
  · cases ha
  · cases ha
    exact ⟨fun i => ⟨(h.vm i).Mmax.append (h'.vm i).Mmax, (h.vm i).Mmin.append (h'.vm i).Mmin,
      (h.vm i).Vmax.append (h'.vm i).Vmax, (h.vm i).Vmin.append (h'.vm i).Vmin,
      (h.vm i).VcoMmax.append_max (h'.vm i).VcoMmax, (h.vm i).VcoMmin.append_min (h'.vm i).VcoMmin,
      (h.vm i).McoVmax.append_max (h'.vm i).McoVmax, (h.vm i).McoVmin.append_min (h'.vm i).McoVmin⟩,
      fun j => (h.Rmaxval j).append (h'.Rmaxval j), fun j => (h.Rminval j).append (h'.Rminval j)⟩

/-- **C31**, union: augmenting the envelope of `l` with that of `l'` gives the
extremes of the envelope of all the results together, with coincident values of
results that govern. -/
theorem C31_augment_union (l l' : List (EnvRes K)) (e e' u : Envelope K)
    (h : Envelope.new l = .ok e) (h' : Envelope.new l' = .ok e')
    (hu : Envelope.new (l ++ l') = .ok u) :
    ∃ o, e.augment e' = .ok o ∧ SameExtremes o u ∧
      ∀ i, Coincident (fun r => r.M i) (fun r => r.V i) (l ++ l') (o.Mmax i) (o.VcoMmax i) ∧
        Coincident (fun r => r.M i) (fun r => r.V i) (l ++ l') (o.Mmin i) (o.VcoMmin i) ∧
        Coincident (fun r => r.V i) (fun r => r.M i) (l ++ l') (o.Vmax i) (o.McoVmax i) ∧
        Coincident (fun r => r.V i) (fun r => r.M i) (l ++ l') (o.Vmin i) (o.McoVmin i) := by
  obtain ⟨hs, _, _, hn⟩ := Envelope.new_spec h
  obtain ⟨hs', _, _, hn'⟩ := Envelope.new_spec h'
  obtain ⟨hsu, _, _, hnu⟩ := Envelope.new_spec hu
  cases l with
  | nil => cases h
  | cons r0 rs =>
    cases l' with
    | nil => cases h'
    | cons r0' rs' =>
      have a1 := hn r0 (by simp)
      have a2 := hn' r0' (by simp)
      have a3 := hnu r0 (by simp)
      have a4 := hnu r0' (by simp)
      have hok : ∃ o, e.augment e' = .ok o := by
        unfold Envelope.augment
        rw [if_neg]
        · exact ⟨_, rfl⟩
        · push Not
          exact ⟨a1.1.symm.trans (a3.1.trans (a4.1.symm.trans a2.1)),
            a1.2.symm.trans (a3.2.trans (a4.2.symm.trans a2.2))⟩
      obtain ⟨o, ho⟩ := hok
      have hso := hs.augment hs' ho
      exact ⟨o, ho, hso.sameExtremes hsu fun _ => Iff.rfl, fun i =>
        ⟨(hso.vm i).VcoMmax, (hso.vm i).VcoMmin, (hso.vm i).McoVmax, (hso.vm i).McoVmin⟩⟩

/-- **C31**, mismatch: envelopes with different station or support counts are
rejected (in the model `self` is a value, so it cannot have been changed; in the
code the test precedes every assignment). -/
theorem C31_mismatch_rejected (e e' : Envelope K) :
    e.augment e' = .error .valueError ↔ (e.npts ≠ e'.npts ∨ e.nsup ≠ e'.nsup) := by
  unfold Envelope.augment
  split
  · simp [*]
  · simp [*]

theorem Envelope.augment_extremes {e e' o : Envelope K} (h : e.augment e' = .ok o) :
    (∀ i, o.Mmax i = max (e.Mmax i) (e'.Mmax i) ∧ o.Mmin i = min (e.Mmin i) (e'.Mmin i) ∧
      o.Vmax i = max (e.Vmax i) (e'.Vmax i) ∧ o.Vmin i = min (e.Vmin i) (e'.Vmin i)) ∧
    (∀ j, o.Rmaxval j = max (e.Rmaxval j) (e'.Rmaxval j) ∧
      o.Rminval j = min (e.Rminval j) (e'.Rminval j)) ∧ o.npts = e.npts ∧ o.nsup = e.nsup := by
  unfold Envelope.augment at h
  split at h
  · cases h
  · cases h
    exact ⟨fun i => ⟨rfl, rfl, rfl, rfl⟩, fun j => ⟨rfl, rfl⟩, rfl, rfl⟩

/-- **C31**, algebra: augmenting with itself changes no extreme, and the order and
grouping of augmentations do not affect the extremes. -/
theorem C31_augment_algebra (e1 e2 e3 : Envelope K) :
    (∃ o, e1.augment e1 = .ok o ∧ SameExtremes o e1) ∧
    (∀ o, e1.augment e2 = .ok o → ∃ o', e2.augment e1 = .ok o' ∧ SameExtremes o o') ∧
    (∀ o12 o, e1.augment e2 = .ok o12 → o12.augment e3 = .ok o →
      ∃ o23 o', e2.augment e3 = .ok o23 ∧ e1.augment o23 = .ok o' ∧ SameExtremes o o') := by
  have hex : ∀ a b : Envelope K, a.npts = b.npts → a.nsup = b.nsup → ∃ o, a.augment b = .ok o := by
    intro a b h1 h2
    unfold Envelope.augment
    rw [if_neg (by push Not; exact ⟨h1, h2⟩)]
    exact ⟨_, rfl⟩
  have hne : ∀ a b o : Envelope K, a.augment b = .ok o → a.npts = b.npts ∧ a.nsup = b.nsup := by
    intro a b o h
    by_contra hc
    rw [not_and_or] at hc
    rw [(C31_mismatch_rejected a b).2 hc] at h
    cases h
  refine ⟨?_, ?_, ?_⟩
  · obtain ⟨o, ho⟩ := hex e1 e1 rfl rfl
    obtain ⟨h1, h2, _⟩ := Envelope.augment_extremes ho
    exact ⟨o, ho, fun i => by simpa using h1 i, fun j => by simpa using h2 j⟩
  · intro o ho
    obtain ⟨a1, a2⟩ := hne _ _ _ ho
    obtain ⟨o', ho'⟩ := hex e2 e1 a1.symm a2.symm
    obtain ⟨h1, h2, _⟩ := Envelope.augment_extremes ho
    obtain ⟨h1', h2', _⟩ := Envelope.augment_extremes ho'
    refine ⟨o', ho', fun i => ?_, fun j => ?_⟩
    · rw [(h1 i).1, (h1 i).2.1, (h1 i).2.2.1, (h1 i).2.2.2, (h1' i).1, (h1' i).2.1, (h1' i).2.2.1,
        (h1' i).2.2.2]
      exact ⟨max_comm _ _, min_comm _ _, max_comm _ _, min_comm _ _⟩
    · rw [(h2 j).1, (h2 j).2, (h2' j).1, (h2' j).2]
      exact ⟨max_comm _ _, min_comm _ _⟩
  · intro o12 o h12 ho
    obtain ⟨a1, a2⟩ := hne _ _ _ h12
    obtain ⟨b1, b2⟩ := hne _ _ _ ho
    obtain ⟨h1, h2, h3, h4⟩ := Envelope.augment_extremes h12
    obtain ⟨k1, k2, _⟩ := Envelope.augment_extremes ho
    obtain ⟨o23, h23⟩ := hex e2 e3 (by rw [← a1, ← h3, b1]) (by rw [← a2, ← h4, b2])
    obtain ⟨m1, m2, m3, m4⟩ := Envelope.augment_extremes h23
    obtain ⟨o', ho'⟩ := hex e1 o23 (by rw [m3, a1]) (by rw [m4, a2])
    obtain ⟨n1, n2, _⟩ := Envelope.augment_extremes ho'
    refine ⟨o23, o', h23, ho', fun i => ?_, fun j => ?_⟩
    · rw [(k1 i).1, (k1 i).2.1, (k1 i).2.2.1, (k1 i).2.2.2, (h1 i).1, (h1 i).2.1, (h1 i).2.2.1,
        (h1 i).2.2.2, (n1 i).1, (n1 i).2.1, (n1 i).2.2.1, (n1 i).2.2.2, (m1 i).1, (m1 i).2.1,
        (m1 i).2.2.1, (m1 i).2.2.2]
      exact ⟨max_assoc _ _ _, min_assoc _ _ _, max_assoc _ _ _, min_assoc _ _ _⟩
    · rw [(k2 j).1, (k2 j).2, (h2 j).1, (h2 j).2, (n2 j).1, (n2 j).2, (m2 j).1, (m2 j).2]
      exact ⟨max_assoc _ _ _, min_assoc _ _ _⟩

theorem zeroLike_spec (e : Envelope K) : EnvSpec [] e.zeroLike := by
  have hc : ∀ f g : EnvRes K → K, Coincident f g [] 0 0 :=
    fun f g => ⟨fun h => absurd rfl h, fun _ => rfl⟩
  exact ⟨fun i => ⟨IsMax0.nil _, IsMin0.nil _, IsMax0.nil _, IsMin0.nil _, hc _ _, hc _ _, hc _ _,
    hc _ _⟩, fun j => IsMax0.nil _, fun j => IsMin0.nil _⟩

theorem mergeAll_spec (es : List (Envelope K)) (ls : List (List (EnvRes K)))
    (h2 : List.Forall₂ EnvSpec ls es) (out o : Envelope K) (l : List (EnvRes K))
    (h : EnvSpec l out) (ho : out.mergeAll .envelope es = .ok o) : EnvSpec (l ++ ls.flatten) o := by
  induction h2 generalizing out l with
  | nil =>
    cases ho
    simpa using h
  | cons hle _ ih =>
    simp only [Envelope.mergeAll] at ho
    split at ho
    · cases ho
    · rename_i out' hout
      have := ih out' _ (h.augment hle hout) ho
      simpa using this

/-- **C31**, `combine` and `|`: the combined envelope of any number of envelopes has
the extremes of one envelope over all their results together. -/
theorem C31_combine_union (ls : List (List (EnvRes K))) (es : List (Envelope K))
    (h : List.Forall₂ (fun l e => Envelope.new l = .ok e) ls es) (o u : Envelope K)
    (ho : Envelope.combine .envelope es = .ok o) (hu : Envelope.new ls.flatten = .ok u) :
    SameExtremes o u ∧
      ∀ i, Coincident (fun r => r.M i) (fun r => r.V i) ls.flatten (o.Mmax i) (o.VcoMmax i) ∧
        Coincident (fun r => r.M i) (fun r => r.V i) ls.flatten (o.Mmin i) (o.VcoMmin i) ∧
        Coincident (fun r => r.V i) (fun r => r.M i) ls.flatten (o.Vmax i) (o.McoVmax i) ∧
        Coincident (fun r => r.V i) (fun r => r.M i) ls.flatten (o.Vmin i) (o.McoVmin i) := by
  have h2 : List.Forall₂ EnvSpec ls es := h.imp fun _ _ hh => (Envelope.new_spec hh).1
  cases es with
  | nil => cases ho
  | cons e es =>
    have hso := mergeAll_spec _ _ h2 _ o [] (zeroLike_spec e) ho
    rw [List.nil_append] at hso
    exact ⟨hso.sameExtremes (Envelope.new_spec hu).1 fun _ => Iff.rfl, fun i =>
        ⟨(hso.vm i).VcoMmax, (hso.vm i).VcoMmin, (hso.vm i).McoVmax, (hso.vm i).McoVmin⟩⟩

/-! ## C32 -/

/-- **C32**, what does hold for one merge: with equal numbers of analyses the history is
the element-wise extreme, with different numbers it is blank and the extremes stay. -/
theorem C32_merge_history_partial (e e' o : Envelope K) (h : e.augment e' = .ok o) :
    (e.nres = e'.nres → ∀ j i, o.Rmax j i = max (e.Rmax j i) (e'.Rmax j i) ∧
      o.Rmin j i = min (e.Rmin j i) (e'.Rmin j i)) ∧
    (e.nres ≠ e'.nres → ∀ j i, o.Rmax j i = 0 ∧ o.Rmin j i = 0) ∧
    ∀ j, o.Rmaxval j = max (e.Rmaxval j) (e'.Rmaxval j) ∧
      o.Rminval j = min (e.Rminval j) (e'.Rminval j) := by
  unfold Envelope.augment at h
  split at h
  · cases h
  · cases h
    refine ⟨fun hn j i => by simp [hn], fun hn j i => by simp [hn], fun j => ⟨rfl, rfl⟩⟩

/-- A result of a one-station, one-support beam with reaction `v`. -/
def exRes (v : ℚ) : EnvRes ℚ := ⟨1, fun _ => 0, fun _ => v, fun _ => 2 * v, 1, fun _ => v, [1]⟩

/-- **C32 fails**: merging an envelope of one analysis with one of two analyses blanks
the history, but merging a further envelope of one analysis makes a history appear
again that contains only the last envelope's reaction (3, while the extreme is 5);
in another order the history stays blank. -/
theorem C32_history_reappears :
    ∃ (a b c : List (EnvRes ℚ)) (ea eb ec o o' : Envelope ℚ),
      Envelope.new a = .ok ea ∧ Envelope.new b = .ok eb ∧ Envelope.new c = .ok ec ∧
      ea.nres ≠ eb.nres ∧
      Envelope.combine .envelope [ea, eb, ec] = .ok o ∧ o.Rmax 0 0 = 3 ∧ o.Rmaxval 0 = 5 ∧
      Envelope.combine .envelope [ea, ec, eb] = .ok o' ∧ o'.Rmax 0 0 = 0 ∧ o'.Rmaxval 0 = 5 := by
  refine ⟨[exRes 1], [exRes 5, exRes 4], [exRes 3], _, _, _, _, _, rfl, rfl, rfl, ?_, rfl, ?_, ?_,
    rfl, ?_, ?_⟩ <;> decide +kernel

/-! ## C33 -/

theorem IsMax0.mem {f : EnvRes K → K} {l : List (EnvRes K)} {v : K} (h : IsMax0 f l v) :
    v = 0 ∨ ∃ r ∈ l, f r = v := h.1

/-- The values one family member can contribute: zero, or that of one of its
results. -/
def Choice (f : EnvRes K → K) (l : List (EnvRes K)) (y : K) : Prop := y = 0 ∨ ∃ r ∈ l, f r = y

/-- `v` is the largest total of one contribution from each family. -/
def IsMaxTotal (f : EnvRes K → K) (ls : List (List (EnvRes K))) (v : K) : Prop :=
  IsGreatest {t | ∃ ys, List.Forall₂ (Choice f) ls ys ∧ t = ys.sum} v

/-- `v` is the least total of one contribution from each family. -/
def IsMinTotal (f : EnvRes K → K) (ls : List (List (EnvRes K))) (v : K) : Prop :=
  IsLeast {t | ∃ ys, List.Forall₂ (Choice f) ls ys ∧ t = ys.sum} v

theorem sum_isGreatest (f : EnvRes K → K) (ls : List (List (EnvRes K))) (vs : List K)
    (h : List.Forall₂ (IsMax0 f) ls vs) : IsMaxTotal f ls vs.sum := by
  constructor
  · exact ⟨vs, h.imp fun _ _ hh => hh.mem, rfl⟩
  · rintro t ⟨ys, hys, rfl⟩
    induction h generalizing ys with
    | nil => cases hys; exact le_rfl
    | cons h1 _ ih =>
      cases hys with
      | cons hy hys =>
        simp only [List.sum_cons]
        refine add_le_add ?_ (ih _ hys)
        rcases hy with rfl | ⟨r, hr, rfl⟩
        · exact h1.nonneg
        · exact h1.le hr

theorem sum_isLeast (f : EnvRes K → K) (ls : List (List (EnvRes K))) (vs : List K)
    (h : List.Forall₂ (IsMin0 f) ls vs) : IsMinTotal f ls vs.sum := by
  constructor
  · exact ⟨vs, h.imp fun _ _ hh => hh.1, rfl⟩
  · rintro t ⟨ys, hys, rfl⟩
    induction h generalizing ys with
    | nil => cases hys; exact le_rfl
    | cons h1 _ ih =>
      cases hys with
      | cons hy hys =>
        simp only [List.sum_cons]
        refine add_le_add ?_ (ih _ hys)
        rcases hy with rfl | ⟨r, hr, rfl⟩
        · exact h1.nonpos
        · exact h1.le hr

theorem mergeAll_sum (es : List (Envelope K)) (out o : Envelope K)
    (ho : out.mergeAll .sum es = .ok o) :
    (∀ i, o.Mmax i = out.Mmax i + (es.map fun e => e.Mmax i).sum ∧
      o.Mmin i = out.Mmin i + (es.map fun e => e.Mmin i).sum ∧
      o.Vmax i = out.Vmax i + (es.map fun e => e.Vmax i).sum ∧
      o.Vmin i = out.Vmin i + (es.map fun e => e.Vmin i).sum) ∧
    ∀ j, o.Rmaxval j = out.Rmaxval j + (es.map fun e => e.Rmaxval j).sum ∧
      o.Rminval j = out.Rminval j + (es.map fun e => e.Rminval j).sum := by
  induction es generalizing out with
  | nil => cases ho; simp
  | cons e es ih =>
    simp only [Envelope.mergeAll, Envelope.merge] at ho
    split at ho
    · cases ho
    · rename_i out' hout
      unfold Envelope.sum at hout
      split at hout
      · cases hout
      · cases hout
        obtain ⟨h1, h2⟩ := ih _ ho
        refine ⟨fun i => ?_, fun j => ?_⟩
        · obtain ⟨a, b, c, d⟩ := h1 i
          simp only [List.map_cons, List.sum_cons] at a b c d ⊢
          rw [a, b, c, d]
          exact ⟨add_assoc _ _ _, add_assoc _ _ _, add_assoc _ _ _, add_assoc _ _ _⟩
        · obtain ⟨a, b⟩ := h2 j
          simp only [List.map_cons, List.sum_cons] at a b ⊢
          rw [a, b]
          exact ⟨add_assoc _ _ _, add_assoc _ _ _⟩

/-- **C33**: in the sum of envelopes each extreme is exactly the extreme total of one
contribution (a result, or the unloaded state) from each family: it bounds every
choice and some choice attains it. -/
theorem C33_sum_bounds (ls : List (List (EnvRes K))) (es : List (Envelope K))
    (h : List.Forall₂ (fun l e => Envelope.new l = .ok e) ls es) (o : Envelope K)
    (ho : Envelope.combine .sum es = .ok o) :
    (∀ i, IsMaxTotal (fun r => r.M i) ls (o.Mmax i) ∧ IsMinTotal (fun r => r.M i) ls (o.Mmin i) ∧
      IsMaxTotal (fun r => r.V i) ls (o.Vmax i) ∧ IsMinTotal (fun r => r.V i) ls (o.Vmin i)) ∧
    ∀ j, IsMaxTotal (fun r => r.R j) ls (o.Rmaxval j) ∧
      IsMinTotal (fun r => r.R j) ls (o.Rminval j) := by
  have h2 : List.Forall₂ EnvSpec ls es := h.imp fun _ _ hh => (Envelope.new_spec hh).1
  have hmap : ∀ (P : List (EnvRes K) → K → Prop) (g : Envelope K → K),
      (∀ l e, EnvSpec l e → P l (g e)) → List.Forall₂ P ls (es.map g) := by
    intro P g hg
    rw [List.forall₂_map_right_iff]
    exact h2.imp hg
  cases es with
  | nil => cases ho
  | cons e es =>
    obtain ⟨h3, h4⟩ := mergeAll_sum _ _ o ho
    refine ⟨fun i => ?_, fun j => ?_⟩
    · obtain ⟨a, b, c, d⟩ := h3 i
      simp only [Envelope.zeroLike, npZeros, zero_add] at a b c d
      rw [a, b, c, d]
      exact ⟨sum_isGreatest _ _ _ (hmap _ _ fun l e he => (he.vm i).Mmax),
        sum_isLeast _ _ _ (hmap _ _ fun l e he => (he.vm i).Mmin),
        sum_isGreatest _ _ _ (hmap _ _ fun l e he => (he.vm i).Vmax),
        sum_isLeast _ _ _ (hmap _ _ fun l e he => (he.vm i).Vmin)⟩
    · obtain ⟨a, b⟩ := h4 j
      simp only [Envelope.zeroLike, npZeros, zero_add] at a b
      rw [a, b]
      exact ⟨sum_isGreatest _ _ _ (hmap _ _ fun l e he => he.Rmaxval j),
        sum_isLeast _ _ _ (hmap _ _ fun l e he => he.Rminval j)⟩

/-! ## C78 -/

/-- Index of the first station of member `k`. -/
def chunkStart (counts : List ℕ) (k : ℕ) : ℕ := (counts.take k).sum

theorem chunksFrom_getElem (values : ℕ → K) (counts : List ℕ) (start k : ℕ) :
    (chunksFrom values start counts)[k]? =
      (counts[k]?).map fun c => (List.range c).map fun q => values (start + chunkStart counts k + q) := by
  induction counts generalizing start k with
  | nil => simp [chunksFrom]
  | cons c cs ih =>
    cases k with
    | zero => simp [chunksFrom, chunkStart]
    | succ k =>
      simp only [chunksFrom, List.getElem?_cons_succ, ih, chunkStart, List.take_succ_cons,
        List.sum_cons, add_assoc]

/-- **C78**: if every member has a station, `per_span` returns for each member the
largest (smallest) value of the array over that member's stations. -/
theorem C78_per_span (e : Envelope K) (values : ℕ → K) (hpos : ∀ c ∈ e.counts, 0 < c) :
    (∃ r, perSpanMax e values = some r ∧ r.length = e.counts.length ∧
      ∀ k (hk : k < e.counts.length) (v : K), r[k]? = some v →
        IsGreatest {y | ∃ q < e.counts[k], y = values (chunkStart e.counts k + q)} v) ∧
    ∃ r, perSpanMin e values = some r ∧ r.length = e.counts.length ∧
      ∀ k (hk : k < e.counts.length) (v : K), r[k]? = some v →
        IsLeast {y | ∃ q < e.counts[k], y = values (chunkStart e.counts k + q)} v := by
  have hlen : ∀ (cs : List ℕ) (s : ℕ), (chunksFrom values s cs).length = cs.length := by
    intro cs
    induction cs with
    | nil => intro s; rfl
    | cons c cs ih => intro s; simp [chunksFrom, ih]
  have key : ∀ (f : List K → Option K), (∀ l : List K, l ≠ [] → ∃ v, f l = some v) →
      ∀ (cs : List ℕ) (s : ℕ), (∀ c ∈ cs, 0 < c) →
      ∃ r, (chunksFrom values s cs).mapM f = some r ∧ r.length = cs.length ∧
        ∀ k, k < cs.length → ∀ v, r[k]? = some v →
          ∃ ch, (chunksFrom values s cs)[k]? = some ch ∧ f ch = some v := by
    intro f hf cs
    induction cs with
    | nil => intro s _; exact ⟨[], rfl, rfl, fun k hk => by simp at hk⟩
    | cons c cs ih =>
      intro s hc
      obtain ⟨r, h1, h2, h3⟩ := ih (s + c) fun c' hc' => hc c' (by simp [hc'])
      obtain ⟨v, hv⟩ := hf ((List.range c).map fun q => values (s + q)) (by
        have := hc c (by simp)
        intro h
        simp at h
        omega)
      refine ⟨v :: r, ?_, by simp [h2], ?_⟩
      · simp [chunksFrom, List.mapM_cons, hv, h1]
      · intro k hk w hw
        cases k with
        | zero =>
          simp at hw
          exact ⟨_, rfl, by rw [← hw]; exact hv⟩
        | succ k =>
          simp only [List.getElem?_cons_succ] at hw
          obtain ⟨ch, c1, c2⟩ := h3 k (by simpa using hk) w hw
          exact ⟨ch, by simpa [chunksFrom] using c1, c2⟩
  constructor
  · obtain ⟨r, h1, h2, h3⟩ := key List.max? (fun l hl => by
      obtain ⟨v, hv⟩ := Option.ne_none_iff_exists'.1 (mt List.max?_eq_none_iff.1 hl)
      exact ⟨v, hv⟩) e.counts 0 hpos
    refine ⟨r, h1, h2, fun k hk v hv => ?_⟩
    obtain ⟨ch, c1, c2⟩ := h3 k hk v hv
    rw [chunksFrom_getElem, List.getElem?_eq_getElem hk] at c1
    simp only [Option.map_some, Option.some.injEq, zero_add] at c1
    rw [← c1, List.max?_eq_some_iff] at c2
    obtain ⟨d1, d2⟩ := c2
    simp only [List.mem_map, List.mem_range] at d1 d2
    constructor
    · obtain ⟨q, hq, h⟩ := d1
      exact ⟨q, hq, h.symm⟩
    · rintro y ⟨q, hq, rfl⟩
      exact d2 _ ⟨q, hq, rfl⟩
  · obtain ⟨r, h1, h2, h3⟩ := key List.min? (fun l hl => by
      obtain ⟨v, hv⟩ := Option.ne_none_iff_exists'.1 (mt List.min?_eq_none_iff.1 hl)
      exact ⟨v, hv⟩) e.counts 0 hpos
    refine ⟨r, h1, h2, fun k hk v hv => ?_⟩
    obtain ⟨ch, c1, c2⟩ := h3 k hk v hv
    rw [chunksFrom_getElem, List.getElem?_eq_getElem hk] at c1
    simp only [Option.map_some, Option.some.injEq, zero_add] at c1
    rw [← c1, List.min?_eq_some_iff] at c2
    obtain ⟨d1, d2⟩ := c2
    simp only [List.mem_map, List.mem_range] at d1 d2
    constructor
    · obtain ⟨q, hq, h⟩ := d1
      exact ⟨q, hq, h.symm⟩
    · rintro y ⟨q, hq, rfl⟩
      exact d2 _ ⟨q, hq, rfl⟩

/-! ### Concrete cases -/

/-- C27-C30 at two results with opposite signs: the maximum is 6 with coincident
shear 3, the minimum -4 with coincident shear -2. -/
example : ∃ e, Envelope.new [exRes 3, exRes (-2)] = .ok e ∧ e.Mmax 0 = 6 ∧ e.VcoMmax 0 = 3 ∧
    e.Mmin 0 = -4 ∧ e.VcoMmin 0 = -2 ∧ e.Rmaxval 0 = 3 ∧ e.Rminval 0 = -2 := by
  refine ⟨_, rfl, ?_, ?_, ?_, ?_, ?_, ?_⟩ <;> decide +kernel

/-- C31 and C33 at two families. -/
example : ∃ e e' o s, Envelope.new [exRes 3] = .ok e ∧ Envelope.new [exRes 5, exRes (-2)] = .ok e' ∧
    Envelope.combine .envelope [e, e'] = .ok o ∧ Envelope.combine .sum [e, e'] = .ok s ∧
    o.Mmax 0 = 10 ∧ o.Mmin 0 = -4 ∧ s.Mmax 0 = 16 ∧ s.Mmin 0 = -4 := by
  refine ⟨_, _, _, _, rfl, rfl, rfl, rfl, ?_, ?_, ?_, ?_⟩ <;> decide +kernel

/-- C78 at two members with two and three stations. -/
example : chunksFrom (fun i => ([1, 4, 2, 0, 7] : List ℚ).getD i 0) 0 [2, 3] = [[1, 4], [2, 0, 7]] := by
  decide +kernel

end PyCBA
