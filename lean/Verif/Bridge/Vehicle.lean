import Verif.Bridge.Model

/-!
C56 (axle coordinates and reversal) and C57 (trains).
-/

set_option linter.unusedSectionVars false
set_option linter.unusedSimpArgs false

namespace PyCBA

variable {K : Type*} [Field K] [LinearOrder K] [IsStrictOrderedRing K]

theorem axleCoords_length (x : K) (l : List K) : (axleCoords x l).length = l.length + 1 := by
  induction l generalizing x with
  | nil => rfl
  | cons s l ih => simp [axleCoords, ih]

theorem axleCoords_get (x : K) (l : List K) (i : ℕ) (hi : i < (axleCoords x l).length) :
    (axleCoords x l)[i] = x + (l.take i).sum := by
  induction l generalizing x i with
  | nil =>
    have : i = 0 := by simp [axleCoords] at hi; omega
    subst this
    simp [axleCoords]
  | cons s l ih =>
    cases i with
    | zero => simp [axleCoords]
    | succ i =>
      simp only [axleCoords, List.getElem_cons_succ, List.take_succ_cons, List.sum_cons]
      rw [ih]
      ring

theorem Vehicle.new_ok {axs axw : List K} {v : Vehicle K} (h : Vehicle.new axs axw = .ok v) :
    axs.length + 1 = axw.length ∧ v = ⟨axs, axw, axs.sum, axw.sum, axw.length, axleCoords 0 axs⟩ := by
  unfold Vehicle.new at h
  split_ifs at h with hl
  exact ⟨by omega, by cases h; rfl⟩

/-- **C56**, coordinates — a vehicle is accepted exactly when it has one weight more than
spacings; its axle coordinates, one per weight, are the cumulative spacings and its length is
the last of them. -/
theorem C56_coordinates (axs axw : List K) :
    ((∃ v, Vehicle.new axs axw = .ok v) ↔ axw.length = axs.length + 1) ∧
    ∀ v, Vehicle.new axs axw = .ok v → v.coords.length = axw.length ∧
      (∀ i (hi : i < v.coords.length), v.coords[i] = (axs.take i).sum) ∧
      v.coords.getLast? = some v.L ∧ v.axw = axw ∧ v.W = axw.sum := by
  constructor
  · constructor
    · rintro ⟨v, h⟩
      exact (Vehicle.new_ok h).1.symm
    · intro h
      unfold Vehicle.new
      rw [if_neg (by omega)]
      exact ⟨_, rfl⟩
  · intro v h
    obtain ⟨h1, rfl⟩ := Vehicle.new_ok h
    refine ⟨by simp [axleCoords_length, h1], fun i hi => ?_, ?_, rfl, rfl⟩
    · simp [axleCoords_get]
    · rw [List.getLast?_eq_getElem?]
      simp only [axleCoords_length, Nat.add_sub_cancel]
      rw [List.getElem?_eq_getElem (by simp [axleCoords_length]), axleCoords_get]
      simp

/-- The axles of a vehicle: how far each is behind the reference point, and its weight. -/
def Vehicle.axles (v : Vehicle K) : List (K × K) := v.coords.zip v.axw

/-- The mirror image of a set of axles about the middle of a vehicle of length `L`. -/
def mirror (L : K) (l : List (K × K)) : List (K × K) := l.map fun cw => (L - cw.1, cw.2)

theorem mirror_mirror (L : K) (l : List (K × K)) : mirror L (mirror L l) = l := by
  simp only [mirror, List.map_map]
  conv_rhs => rw [← List.map_id l]
  apply List.map_congr_left
  intro x _
  simp

/-- **C56**, in place — reversing in place mirrors the axles, and doing it twice gives the
vehicle back, whatever was done to it before. -/
theorem C56_reverse_in_place (v : Vehicle K) :
    v.reverseInPlace.axles = mirror v.L v.axles ∧ v.reverseInPlace.reverseInPlace = v := by
  constructor
  · simp [Vehicle.reverseInPlace, Vehicle.axles, mirror, List.zip_map_left, Prod.map]
  · obtain ⟨axs, axw, L, W, n, cs⟩ := v
    simp [Vehicle.reverseInPlace]

theorem axleCoords_reverse (l : List K) :
    axleCoords 0 l.reverse = ((axleCoords 0 l).map fun c => l.sum - c).reverse := by
  apply List.ext_getElem
  · simp [axleCoords_length]
  intro i h1 h2
  have hi : i < l.length + 1 := by simpa [axleCoords_length] using h1
  rw [axleCoords_get, List.getElem_reverse, List.getElem_map, axleCoords_get]
  simp only [List.length_map, axleCoords_length, zero_add]
  have hs := List.sum_append (l₁ := l.take (l.length + 1 - 1 - i)) (l₂ := l.drop (l.length + 1 - 1 - i))
  rw [List.take_append_drop] at hs
  rw [List.take_reverse, List.sum_reverse]
  simp only [Nat.add_sub_cancel] at hs ⊢
  rw [eq_sub_iff_add_eq, hs]
  ring

/-- **C56**, copies — the reversed copy of a new vehicle has the mirrored axles (listed from
its own front), and the reversed copy of that copy is the vehicle itself. -/
theorem C56_reverse_copy (axs axw : List K) (v : Vehicle K) (h : Vehicle.new axs axw = .ok v) :
    ∃ v', v.reverseCopy = .ok v' ∧ v'.L = v.L ∧ v'.axles = (mirror v.L v.axles).reverse ∧
      v'.reverseCopy = .ok v := by
  obtain ⟨h1, rfl⟩ := Vehicle.new_ok h
  have h2 : axs.reverse.length + 1 = axw.reverse.length := by simpa using h1
  refine ⟨⟨axs.reverse, axw.reverse, axs.reverse.sum, axw.reverse.sum, axw.reverse.length,
    axleCoords 0 axs.reverse⟩, ?_, ?_, ?_, ?_⟩
  · unfold Vehicle.reverseCopy Vehicle.new
    rw [if_neg (by simp; omega)]
  · simp [List.sum_reverse]
  · simp only [Vehicle.axles, mirror]
    rw [axleCoords_reverse]
    have : (axleCoords 0 axs).length = axw.length := by rw [axleCoords_length, h1]
    apply List.ext_getElem
    · simp
    · intro i _ _
      simp [this]
  · unfold Vehicle.reverseCopy Vehicle.new
    simp only [List.reverse_reverse]
    rw [if_neg (by omega)]

/-- `n` reversed copies, each of the one before. -/
def Vehicle.copies (v : Vehicle K) : ℕ → Except PyErr (Vehicle K)
  | 0 => .ok v
  | n + 1 => match v.reverseCopy with
    | .error e => .error e
    | .ok v' => v'.copies n

/-- **C56**, sequences, partial — `n` reversed copies of a new vehicle followed by `m`
reversals in place give, as a set of axles, the vehicle itself if `n + m` is even and its
mirror image if it is odd.  Missing: copies taken after a reversal in place
(`C56_mixed_violation`). -/
theorem C56_sequences_partial (axs axw : List K) (v : Vehicle K) (h : Vehicle.new axs axw = .ok v)
    (n m : ℕ) : ∃ v', v.copies n = .ok v' ∧
      (Vehicle.reverseInPlace^[m] v').axles.Perm
        (if (n + m) % 2 = 0 then v.axles else mirror v.L v.axles) := by
  have hin : ∀ (m : ℕ) (u : Vehicle K), (Vehicle.reverseInPlace^[m] u).axles =
      if m % 2 = 0 then u.axles else mirror u.L u.axles := by
    intro m
    induction m with
    | zero => intro u; simp
    | succ m ih =>
      intro u
      rw [Function.iterate_succ_apply, ih]
      obtain ⟨h1, h2⟩ := C56_reverse_in_place u
      have hL : u.reverseInPlace.L = u.L := rfl
      rw [hL, h1, mirror_mirror]
      rcases Nat.mod_two_eq_zero_or_one m with hm | hm
      · rw [if_pos hm, if_neg (by omega)]
      · rw [if_neg (by omega), if_pos (by omega)]
  have hcop : ∀ n axs axw v, Vehicle.new axs axw = .ok v → ∃ v' : Vehicle K, v.copies n = .ok v' ∧
      v'.L = v.L ∧ v'.axles.Perm (if n % 2 = 0 then v.axles else mirror v.L v.axles) := by
    intro n
    induction n with
    | zero => intro axs axw v _; exact ⟨v, rfl, rfl, by simp⟩
    | succ n ih =>
      intro axs axw v h
      obtain ⟨v', h1, h2, h3, -⟩ := C56_reverse_copy axs axw v h
      have hnew : Vehicle.new v.axs.reverse v.axw.reverse = .ok v' := h1
      obtain ⟨v'', k1, k2, k3⟩ := ih _ _ v' hnew
      refine ⟨v'', ?_, k2.trans h2, ?_⟩
      · simp only [Vehicle.copies, h1, k1]
      · refine k3.trans ?_
        rcases Nat.mod_two_eq_zero_or_one n with hm | hm
        · rw [if_pos hm, if_neg (by omega), h3]
          exact List.reverse_perm _
        · rw [if_neg (by omega), if_pos (by omega), h3, h2]
          simp only [mirror, List.map_reverse]
          refine (List.reverse_perm _).trans ?_
          have := mirror_mirror v.L v.axles
          simp only [mirror] at this
          rw [this]
  obtain ⟨v', h1, h2, h3⟩ := hcop n axs axw v h
  refine ⟨v', h1, ?_⟩
  rw [hin, h2]
  rcases Nat.mod_two_eq_zero_or_one n with hn | hn <;>
    rcases Nat.mod_two_eq_zero_or_one m with hm | hm
  · rw [if_pos hm, if_pos (by omega)]; rwa [if_pos hn] at h3
  · rw [if_neg (by omega), if_neg (by omega)]; rw [if_pos hn] at h3
    exact h3.map _
  · rw [if_pos hm, if_neg (by omega)]; rwa [if_neg (by omega)] at h3
  · rw [if_neg (by omega), if_pos (by omega)]; rw [if_neg (by omega)] at h3
    have := h3.map fun cw : K × K => (v.L - cw.1, cw.2)
    rwa [show (mirror v.L v.axles).map (fun cw : K × K => (v.L - cw.1, cw.2)) = v.axles from
      mirror_mirror v.L v.axles] at this

/-- **C56 fails** for a copy taken after a reversal in place: the "reversed copy" has the same
axles in the same places as the vehicle it was taken from. -/
theorem C56_mixed_violation :
    ∃ (axs axw : List ℚ) (v v' : Vehicle ℚ), Vehicle.new axs axw = .ok v ∧
      v.reverseInPlace.reverseCopy = .ok v' ∧
      v'.axles.Perm v.reverseInPlace.axles ∧
      ¬ v'.axles.Perm (mirror v.L v.reverseInPlace.axles) := by
  refine ⟨[2], [1, 3], ⟨[2], [1, 3], 2, 4, 2, [0, 2]⟩, ⟨[2], [3, 1], 2, 4, 2, [0, 2]⟩,
    by decide +kernel, by decide +kernel, by decide +kernel, by decide +kernel⟩

/-! ## C57 -/

/-- The spacings of vehicles one behind the other, with the given gaps. -/
def joined : List (List K) → List K → List K
  | [], _ => []
  | [a], _ => a
  | a :: as, g :: gs => a ++ g :: joined as gs
  | a :: as, [] => a ++ joined as []

theorem replaceZeros_nonzero (a vals rest : List K) (h : ∀ x ∈ a, x ≠ 0) :
    replaceZeros (a ++ rest) vals = a ++ replaceZeros rest vals := by
  induction a with
  | nil => rfl
  | cons x a ih =>
    have := ih fun y hy => h y (List.mem_cons_of_mem _ hy)
    simp only [List.cons_append, replaceZeros, if_neg (h x List.mem_cons_self), this]

theorem replaceZeros_spaces (ls : List (List K)) (h : ∀ a ∈ ls, ∀ x ∈ a, x ≠ 0) (gs : List K)
    (hl : gs.length = ls.length) :
    replaceZeros (ls.flatMap fun a => 0 :: a) gs = (gs.zip ls).flatMap fun p => p.1 :: p.2 := by
  induction ls generalizing gs with
  | nil => cases gs <;> rfl
  | cons a ls ih =>
    cases gs with
    | nil => simp at hl
    | cons g gs =>
      simp only [List.flatMap_cons, List.cons_append, replaceZeros, if_true, List.zip_cons_cons]
      rw [replaceZeros_nonzero _ _ _ (h a List.mem_cons_self),
        ih (fun b hb => h b (List.mem_cons_of_mem _ hb)) gs (by simpa using hl)]

theorem joined_zip (a : List K) (ls : List (List K)) (gs : List K) (hl : gs.length = ls.length) :
    a ++ ((gs.zip ls).flatMap fun p => p.1 :: p.2) = joined (a :: ls) gs := by
  induction ls generalizing a gs with
  | nil => simp [joined]
  | cons b ls ih =>
    cases gs with
    | nil => simp at hl
    | cons g gs =>
      rw [List.zip_cons_cons, List.flatMap_cons, joined, ← ih b gs (by simpa using hl)]
      · simp
      · simp

theorem zeros_spaces (ls : List (List K)) (h : ∀ a ∈ ls, ∀ x ∈ a, x ≠ 0) :
    ((ls.flatMap fun a => (0 : K) :: a).filter fun x => decide (x = 0)).length = ls.length := by
  induction ls with
  | nil => rfl
  | cons a ls ih =>
    have ha : a.filter (fun x => decide (x = 0)) = [] := by
      rw [List.filter_eq_nil_iff]
      intro x hx
      simpa using h a List.mem_cons_self x hx
    simp only [List.flatMap_cons, List.cons_append, List.filter_append, List.length_append,
      List.filter_cons, decide_true, if_true, ha, List.length_cons, List.length_nil]
    rw [ih fun b hb => h b (List.mem_cons_of_mem _ hb)]
    omega

theorem joined_length (a : List K) (ls : List (List K)) (gs : List K)
    (hl : gs.length = ls.length) :
    (joined (a :: ls) gs).length + 1 = ((a :: ls).flatMap fun a => (0 : K) :: a).length := by
  induction ls generalizing a gs with
  | nil => simp [joined]
  | cons b ls ih =>
    cases gs with
    | nil => simp at hl
    | cons g gs =>
      have := ih b gs (by simpa using hl)
      rw [joined, List.flatMap_cons, List.length_append, List.length_append, ← this]
      · simp; omega
      · simp

/-- **C57**, partial — a train of new vehicles with one gap fewer than vehicles and no two
axles of a vehicle at the same place: its weights are those of the vehicles in order, and its
spacings those of the vehicles with the gaps between them.  Missing: a single gap for all
vehicles, coincident axles, and vehicles reversed in place (the violations below). -/
theorem C57_train_partial (vs : List (Vehicle K)) (hne : vs ≠ [])
    (hv : ∀ v ∈ vs, Vehicle.new v.axs v.axw = .ok v) (hz : ∀ v ∈ vs, ∀ x ∈ v.axs, x ≠ 0)
    (gaps : List K) (hg : gaps.length + 1 = vs.length) :
    ∃ t, makeTrain vs gaps = .ok t ∧ t.axw = vs.flatMap Vehicle.axw ∧
      t.axs = joined (vs.map Vehicle.axs) gaps ∧ t.W = (vs.map Vehicle.W).sum ∧
      Vehicle.new t.axs t.axw = .ok t := by
  have hlen : ∀ l : List (Vehicle K), (∀ v ∈ l, Vehicle.new v.axs v.axw = .ok v) →
      (l.flatMap fun v => v.axw).length = (l.flatMap fun v => (0 : K) :: v.axs).length := by
    intro l
    induction l with
    | nil => intro _; rfl
    | cons v l ih =>
      intro h
      have := (Vehicle.new_ok (h v List.mem_cons_self)).1
      simp only [List.flatMap_cons, List.length_append, List.length_cons]
      rw [ih fun u hu => h u (List.mem_cons_of_mem _ hu)]
      omega
  have hW : ∀ l : List (Vehicle K), (∀ v ∈ l, Vehicle.new v.axs v.axw = .ok v) →
      (l.flatMap fun v => v.axw).sum = (l.map Vehicle.W).sum := by
    intro l
    induction l with
    | nil => intro _; rfl
    | cons v l ih =>
      intro h
      have hw : v.W = v.axw.sum := by
        have := (Vehicle.new_ok (h v List.mem_cons_self)).2
        rw [this]
      simp only [List.flatMap_cons, List.sum_append, List.map_cons, List.sum_cons, hw]
      rw [ih fun u hu => h u (List.mem_cons_of_mem _ hu)]
  have hfm : (vs.flatMap fun v => (0 : K) :: v.axs) =
      (vs.map Vehicle.axs).flatMap fun a => (0 : K) :: a := by
    rw [List.flatMap_map]
  have hz' : ∀ a ∈ vs.map Vehicle.axs, ∀ x ∈ a, x ≠ 0 := by
    intro a ha
    obtain ⟨v, h1, rfl⟩ := List.mem_map.1 ha
    exact hz v h1
  have hmask : maskAssign (vs.flatMap fun v => (0 : K) :: v.axs) (0 :: gaps) =
      .ok (0 :: joined (vs.map Vehicle.axs) gaps) := by
    obtain ⟨v, vs', rfl⟩ := List.exists_cons_of_ne_nil hne
    cases gaps with
    | nil =>
      have : vs' = [] := by
        cases vs' with
        | nil => rfl
        | cons => simp at hg
      subst this
      simp only [maskAssign, List.map_cons, List.map_nil, joined, List.flatMap_cons,
        List.flatMap_nil, List.append_nil, if_true]
      congr 2
      conv_rhs => rw [← List.map_id v.axs]
      apply List.map_congr_left
      intro x hx
      rw [if_neg (hz v List.mem_cons_self x hx)]
      rfl
    | cons g gs =>
      simp only [maskAssign]
      rw [hfm, zeros_spaces _ hz', if_pos (by simpa using hg)]
      rw [replaceZeros_spaces _ hz' _ (by simpa using hg)]
      simp only [List.map_cons, List.zip_cons_cons, List.flatMap_cons, List.cons_append]
      rw [joined_zip _ _ _ (by simpa using hg)]
  have hnew : (joined (vs.map Vehicle.axs) gaps).length + 1 = (vs.flatMap fun v => v.axw).length := by
    rw [hlen vs hv, hfm]
    obtain ⟨v, vs', rfl⟩ := List.exists_cons_of_ne_nil hne
    exact joined_length _ _ _ (by simpa using hg)
  have hn : Vehicle.new (joined (vs.map Vehicle.axs) gaps) (vs.flatMap fun v => v.axw) =
      .ok ⟨joined (vs.map Vehicle.axs) gaps, vs.flatMap fun v => v.axw,
        (joined (vs.map Vehicle.axs) gaps).sum, (vs.flatMap fun v => v.axw).sum,
        (vs.flatMap fun v => v.axw).length, axleCoords 0 (joined (vs.map Vehicle.axs) gaps)⟩ := by
    unfold Vehicle.new
    rw [if_neg (by omega)]
  refine ⟨⟨joined (vs.map Vehicle.axs) gaps, vs.flatMap fun v => v.axw,
        (joined (vs.map Vehicle.axs) gaps).sum, (vs.flatMap fun v => v.axw).sum,
        (vs.flatMap fun v => v.axw).length, axleCoords 0 (joined (vs.map Vehicle.axs) gaps)⟩,
    ?_, rfl, rfl, hW vs hv, hn⟩
  unfold makeTrain
  rw [if_neg (by push_cast; omega)]
  simp only [hmask, List.tail_cons]
  exact hn

/-- **C57 fails** for the documented single spacing: "a vector of spacings between vehicles,
either of length one, for equal spacings between all vehicles, …" is rejected for three
vehicles. -/
theorem C57_equal_spacing_violation :
    ∃ (v : Vehicle ℚ) (g : ℚ), Vehicle.new [2] [1, 3] = .ok v ∧
      makeTrain [v, v, v] [g] = .error .valueError :=
  ⟨⟨[2], [1, 3], 2, 4, 2, [0, 2]⟩, 5, by decide +kernel, by decide +kernel⟩

/-- **C57 fails** for a vehicle with two axles at the same place, which by itself is accepted:
the assignment to the zero entries raises. -/
theorem C57_coincident_violation :
    ∃ v : Vehicle ℚ, Vehicle.new [0, 2] [1, 3, 1] = .ok v ∧
      makeTrain [v, v] [5] = .error .valueError :=
  ⟨⟨[0, 2], [1, 3, 1], 2, 5, 3, [0, 0, 2]⟩, by decide +kernel, by decide +kernel⟩

/-- **C57 fails** for a vehicle reversed in place: it joins the train facing forwards. -/
theorem C57_reversed_violation :
    ∃ v t t' : Vehicle ℚ, Vehicle.new [2] [1, 3] = .ok v ∧ v.reverseInPlace ≠ v ∧
      makeTrain [v.reverseInPlace, v] [5] = .ok t ∧ makeTrain [v, v] [5] = .ok t' ∧ t = t' :=
  ⟨⟨[2], [1, 3], 2, 4, 2, [0, 2]⟩, ⟨[2, 5, 2], [1, 3, 1, 3], 9, 8, 4, [0, 2, 7, 9]⟩,
    ⟨[2, 5, 2], [1, 3, 1, 3], 9, 8, 4, [0, 2, 7, 9]⟩, by decide +kernel, by decide +kernel,
    by decide +kernel, by decide +kernel, rfl⟩

/-- C56 and C57 at work: a two-axle and a one-axle vehicle five apart. -/
example : ∃ v u t : Vehicle ℚ, Vehicle.new [2] [1, 3] = .ok v ∧ Vehicle.new [] [7] = .ok u ∧
    makeTrain [v, u] [5] = .ok t ∧ t.axles = [(0, 1), (2, 3), (7, 7)] ∧
    t.reverseInPlace.axles = [(7, 1), (5, 3), (0, 7)] :=
  ⟨⟨[2], [1, 3], 2, 4, 2, [0, 2]⟩, ⟨[], [7], 0, 7, 1, [0]⟩,
    ⟨[2, 5], [1, 3, 7], 7, 11, 3, [0, 2, 7]⟩, by decide +kernel, by decide +kernel,
    by decide +kernel, by decide +kernel, by decide +kernel⟩

end PyCBA
