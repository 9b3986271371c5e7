import Verif.Bridge.Vehicle
import Mathlib.Tactic.IntervalCases

/-!
C87: the vehicles of `VehicleLibrary`, `src/pycba/vehicle.py` 214-705.

Lengths are in metres and weights in kN as in the code; decimal constants are the exact
decimals.
-/

set_option linter.unusedSectionVars false
set_option linter.unusedSimpArgs false

namespace PyCBA

variable {K : Type*} [Field K] [LinearOrder K] [IsStrictOrderedRing K]

/-! ## Model -/

/-- `l[i]` of a Python list: negative indices count from the end. -/
def listIndex {α : Type*} (l : List α) (i : ℤ) : Except PyErr α :=
  match (if 0 ≤ i then l[i.toNat]? else
    if 0 ≤ i + l.length then l[(i + l.length).toNat]? else none) with
  | some a => .ok a
  | none => .error .indexError

/-- `AU.abag_bdouble_aw`, `vehicle.py` 257-272. -/
def abagBdoubleAw : List K :=
  [6, 17 / 2, 17 / 2, 22.5 / 3, 22.5 / 3, 22.5 / 3, 22.5 / 3, 22.5 / 3, 22.5 / 3].map (· * 9.81)

/-- `AU.abag_bdouble_as`, `vehicle.py` 274-278. -/
def abagBdoubleAs : List (List K) :=
  [[3, 1.2, 5.5, 1.2, 1.2, 6.5, 1.2, 1.2],
   [3, 1.2, 6, 1.2, 1.2, 6, 1.2, 1.2],
   [3, 1.2, 6.5, 1.2, 1.2, 5.5, 1.2, 1.2]]

/-- `AU.abag_semitrailer_aw`, `vehicle.py` 280-282. -/
def abagSemitrailerAw : List K :=
  [6, 17 / 2, 17 / 2, 22.5 / 2, 22.5 / 2, 22.5 / 3].map (· * 9.81)

/-- `AU.abag_semitrailer_as`, `vehicle.py` 284-289. -/
def abagSemitrailerAs : List (List K) :=
  [[3, 1.2, 4.4, 1.2, 1.2], [3, 1.2, 6.4, 1.2, 1.2],
   [3, 1.2, 8.4, 1.2, 1.2], [3, 1.2, 10.4, 1.2, 1.2]]

/-- `AU.get_abag_bdouble`, `vehicle.py` 310. -/
def getAbagBdouble (i : ℤ) : Except PyErr (Vehicle K) :=
  match listIndex abagBdoubleAs i with
  | .error e => .error e
  | .ok axs => Vehicle.new axs abagBdoubleAw

/-- `AU.get_abag_semitrailer`, `vehicle.py` 332. -/
def getAbagSemitrailer (i : ℤ) : Except PyErr (Vehicle K) :=
  match listIndex abagSemitrailerAs i with
  | .error e => .error e
  | .ok axs => Vehicle.new axs abagSemitrailerAw

/-- The axle spacings shared by `get_m1600` and `get_s1600`, `vehicle.py` 366-378 and
405-417. -/
def spacings1600 (m : K) : List K :=
  [1.25, 1.25, 3.75, 1.25, 1.25, m, 1.25, 1.25, 5, 1.25, 1.25]

/-- `AU.get_m1600`, `vehicle.py` 364-380. -/
def getM1600 (m : K) : Except PyErr (Vehicle K) :=
  if m < 6.25 then .error .valueError
  else Vehicle.new (spacings1600 m) (List.replicate 12 120)

/-- `AU.get_s1600`, `vehicle.py` 403-419. -/
def getS1600 (m : K) : Except PyErr (Vehicle K) :=
  if m < 6.25 then .error .valueError
  else Vehicle.new (spacings1600 m) (List.replicate 12 80)

/-- `AU.get_a160` and `AU.get_w80`, `vehicle.py` 424, 429. -/
def getA160 : Except PyErr (Vehicle K) := Vehicle.new [] [160]

@[inherit_doc getA160]
def getW80 : Except PyErr (Vehicle K) := Vehicle.new [] [80]

/-- `AU.get_la_rail`, `vehicle.py` 455-475. -/
def getLaRail (count : ℤ) (spacing weight : K) : Except PyErr (Vehicle K) :=
  if spacing < 12 ∨ spacing > 20 then .error .valueError
  else if count < 1 then .error .valueError
  else
    let ags : List K := [1.7, 1.1, 1.7]
    let agw : List K := [300, 300, 300, 300]
    let loop := (List.range (count + 1 - 2).toNat).foldl
      (fun (s : List K × List K) _ => (s.1 ++ ([spacing - ags.sum] ++ ags), s.2 ++ agw))
      ([2] ++ ags, [360] ++ agw)
    Vehicle.new loop.1 (loop.2.map fun w => weight / 300 * w)

/-- `AU.get_t44`, `vehicle.py` 499-506. -/
def getT44 (s : K) : Except PyErr (Vehicle K) :=
  if ¬ (3 ≤ s ∧ s ≤ 8) then .error .valueError
  else Vehicle.new [3.7, 1.2, s, 1.2] [48, 96, 96, 96, 96]

/-- `AU.get_ms18`, `vehicle.py` 522-528. -/
def getMs18 (s : K) : Except PyErr (Vehicle K) :=
  if ¬ (4.27 ≤ s ∧ s ≤ 9.14) then .error .valueError
  else Vehicle.new [4.27, s] [35.6, 142.3, 142.3]

/-- `US.get_hl93_truck`, `vehicle.py` 551-557. -/
def getHl93Truck (s : K) : Except PyErr (Vehicle K) :=
  if ¬ (4.3 ≤ s ∧ s ≤ 9) then .error .valueError
  else Vehicle.new [4.3, s] [35, 145, 145]

/-- `US.get_hl93_tandem`, `vehicle.py` 566. -/
def getHl93Tandem : Except PyErr (Vehicle K) := Vehicle.new [1.2] [110, 110]

/-- `US.get_cooper`, `vehicle.py` 589-595. -/
def getCooper (E : K) : Except PyErr (Vehicle K) :=
  let locoW : List K := [5, 10, 10, 10, 10, 6.5, 6.5, 6.5, 6.5]
  let locoS : List K := [8, 5, 5, 5, 9, 5, 6, 5]
  Vehicle.new ((locoS ++ [8] ++ locoS).map (· * 0.3048))
    ((locoW ++ locoW).map fun w => w * (E / 10) * 4.4482216)

/-- `EU.get_lm1`, `vehicle.py` 615-616. -/
def getLm1 (a : K) : Except PyErr (Vehicle K) := Vehicle.new [1.2] [300 * a, 300 * a]

/-- `EU.get_lm71`, `vehicle.py` 631-632. -/
def getLm71 (a : K) : Except PyErr (Vehicle K) :=
  Vehicle.new [1.6, 1.6, 1.6] (List.replicate 4 (250 * a))

/-- `UK.get_hb`, `vehicle.py` 655-656. -/
def getHb (units inner : K) : Except PyErr (Vehicle K) :=
  Vehicle.new [1.8, inner, 1.8] (List.replicate 4 (units * 10))

/-- `CA.get_cl625`, `vehicle.py` 672-675. -/
def getCl625 : Except PyErr (Vehicle K) :=
  Vehicle.new [3.6, 1.2, 6.6, 6.6] [50, 125, 125, 175, 150]

/-- `CN.get_jtg_vehicle`, `vehicle.py` 691-694. -/
def getJtg : Except PyErr (Vehicle K) :=
  Vehicle.new [3, 1.4, 7, 1.4] [30, 120, 120, 140, 140]

/-! ## C87 -/

/-- A vehicle with the axles `axles` (position behind the front axle and weight), whose stated
number of axles, wheelbase and total weight are those of the axles. -/
structure Vehicle.Has (v : Vehicle K) (axles : List (K × K)) : Prop where
  axles_eq : v.axles = axles
  count : v.noAxles = axles.length
  weight : v.W = (axles.map Prod.snd).sum
  wheelbase : (axles.map Prod.fst).getLast? = some v.L

theorem Vehicle.new_has {axs axw : List K} {v : Vehicle K} (h : Vehicle.new axs axw = .ok v) :
    v.Has ((axleCoords 0 axs).zip axw) := by
  have hc := (C56_coordinates axs axw).2 v h
  obtain ⟨h1, rfl⟩ := Vehicle.new_ok h
  have hl : (axleCoords 0 axs).length = axw.length := by rw [axleCoords_length, h1]
  refine ⟨rfl, ?_, ?_, ?_⟩
  · simp [hl]
  · rw [List.map_snd_zip hl.ge]
  · rw [List.map_fst_zip hl.le]
    exact hc.2.2.1

/-- A list of axles given by the list of their positions and a list of weights. -/
def axlesAt (xs ws : List K) : List (K × K) := xs.zip ws

/-- **C87**, trucks with a variable spacing — each is available exactly for the documented range
of the spacing, and its axles stand where the code of practice puts them: the M1600 and S1600
have four groups of three axles 1.25 m apart, of 120 and 80 kN each; T44 has a steer axle of
48 kN and two tandems of 96 kN axles (432 kN in all); MS18 and HL-93 three axles. -/
theorem C87_variable (s : K) :
    ((∃ v, getM1600 s = .ok v) ↔ 6.25 ≤ s) ∧ ((∃ v, getS1600 s = .ok v) ↔ 6.25 ≤ s) ∧
    ((∃ v, getT44 s = .ok v) ↔ 3 ≤ s ∧ s ≤ 8) ∧
    ((∃ v, getMs18 s = .ok v) ↔ 4.27 ≤ s ∧ s ≤ 9.14) ∧
    ((∃ v, getHl93Truck s = .ok v) ↔ 4.3 ≤ s ∧ s ≤ 9) ∧
    (∀ v, getM1600 s = .ok v → v.W = 1440 ∧
      v.Has (([0, 1, 2].flatMap fun j : K => [(1.25 * j, (120 : K))]) ++
        ([0, 1, 2].flatMap fun j : K => [(6.25 + 1.25 * j, (120 : K))]) ++
        ([0, 1, 2].flatMap fun j : K => [(8.75 + s + 1.25 * j, (120 : K))]) ++
        ([0, 1, 2].flatMap fun j : K => [(16.25 + s + 1.25 * j, (120 : K))]))) ∧
    (∀ v, getS1600 s = .ok v → v.W = 960 ∧
      v.Has (([0, 1, 2].flatMap fun j : K => [(1.25 * j, (80 : K))]) ++
        ([0, 1, 2].flatMap fun j : K => [(6.25 + 1.25 * j, (80 : K))]) ++
        ([0, 1, 2].flatMap fun j : K => [(8.75 + s + 1.25 * j, (80 : K))]) ++
        ([0, 1, 2].flatMap fun j : K => [(16.25 + s + 1.25 * j, (80 : K))]))) ∧
    (∀ v, getT44 s = .ok v → v.W = 432 ∧
      v.Has [(0, 48), (3.7, 96), (4.9, 96), (4.9 + s, 96), (6.1 + s, 96)]) ∧
    (∀ v, getMs18 s = .ok v → v.Has [(0, 35.6), (4.27, 142.3), (4.27 + s, 142.3)]) ∧
    (∀ v, getHl93Truck s = .ok v → v.W = 325 ∧
      v.Has [(0, 35), (4.3, 145), (4.3 + s, 145)]) := by
  have acc : ∀ axs axw : List K, axs.length + 1 = axw.length → ∃ v, Vehicle.new axs axw = .ok v :=
    fun axs axw h => ((C56_coordinates axs axw).1).2 h.symm
  refine ⟨⟨?_, ?_⟩, ⟨?_, ?_⟩, ⟨?_, ?_⟩, ⟨?_, ?_⟩, ⟨?_, ?_⟩, ?_, ?_, ?_, ?_, ?_⟩
  · rintro ⟨v, h⟩
    unfold getM1600 at h
    split_ifs at h with h1
    exact not_lt.1 h1
  · intro h
    unfold getM1600
    rw [if_neg (not_lt.2 h)]
    exact acc _ _ rfl
  · rintro ⟨v, h⟩
    unfold getS1600 at h
    split_ifs at h with h1
    exact not_lt.1 h1
  · intro h
    unfold getS1600
    rw [if_neg (not_lt.2 h)]
    exact acc _ _ rfl
  · rintro ⟨v, h⟩
    unfold getT44 at h
    split_ifs at h with h1
    exact h1
  · intro h
    unfold getT44
    rw [if_neg (by norm_num; exact h)]
    exact acc _ _ rfl
  · rintro ⟨v, h⟩
    unfold getMs18 at h
    split_ifs at h with h1
    exact h1
  · intro h
    unfold getMs18
    rw [if_neg (by simpa using h)]
    exact acc _ _ rfl
  · rintro ⟨v, h⟩
    unfold getHl93Truck at h
    split_ifs at h with h1
    norm_num at h1 ⊢
    exact h1
  · intro h
    unfold getHl93Truck
    rw [if_neg (by norm_num at h ⊢; exact h)]
    exact acc _ _ rfl
  · intro v h
    unfold getM1600 at h
    split_ifs at h
    have hh := Vehicle.new_has h
    refine ⟨?_, ?_⟩
    · rw [hh.weight]
      simp [spacings1600, axleCoords, List.replicate]
      norm_num
    · convert hh using 1
      simp [spacings1600, axleCoords, List.replicate]
      norm_num
      refine ⟨?_, ?_, ?_⟩ <;> ring
  · intro v h
    unfold getS1600 at h
    split_ifs at h
    have hh := Vehicle.new_has h
    refine ⟨?_, ?_⟩
    · rw [hh.weight]
      simp [spacings1600, axleCoords, List.replicate]
      norm_num
    · convert hh using 1
      simp [spacings1600, axleCoords, List.replicate]
      norm_num
      refine ⟨?_, ?_, ?_⟩ <;> ring
  · intro v h
    unfold getT44 at h
    split_ifs at h
    have hh := Vehicle.new_has h
    refine ⟨?_, ?_⟩
    · rw [hh.weight]
      simp [axleCoords]
      norm_num
    · convert hh using 1
      simp [axleCoords]
      norm_num
      ring
  · intro v h
    unfold getMs18 at h
    split_ifs at h
    have hh := Vehicle.new_has h
    convert hh using 1
    simp [axleCoords]
  · intro v h
    unfold getHl93Truck at h
    split_ifs at h
    have hh := Vehicle.new_has h
    refine ⟨?_, ?_⟩
    · rw [hh.weight]
      simp [axleCoords]
      norm_num
    · convert hh using 1
      simp [axleCoords]

/-- **C87**, other load models — totals, numbers of axles and positions as documented, for every
factor on the weights and every inner spacing. -/
theorem C87_fixed (a inner : K) :
    (∃ v, getA160 = .ok v ∧ v.Has [((0 : K), (160 : K))]) ∧
    (∃ v, getW80 = .ok v ∧ v.Has [((0 : K), (80 : K))]) ∧
    (∃ v, getHl93Tandem = .ok v ∧ v.Has [((0 : K), (110 : K)), (1.2, 110)]) ∧
    (∃ v, getLm1 a = .ok v ∧ v.Has [(0, a * 300), (1.2, a * 300)]) ∧
    (∃ v, getLm71 a = .ok v ∧
      v.Has [(0, a * 250), (1.6, a * 250), (3.2, a * 250), (4.8, a * 250)]) ∧
    (∃ v, getHb a inner = .ok v ∧ v.W = 40 * a ∧ v.Has [(0, 10 * a), (1.8, 10 * a),
      (1.8 + inner, 10 * a), (3.6 + inner, 10 * a)]) ∧
    (∃ v, getCl625 = .ok v ∧ v.W = (625 : K) ∧
      v.Has [(0, 50), (3.6, 125), (4.8, 125), (11.4, 175), (18, 150)]) ∧
    (∃ v, getJtg = .ok v ∧ v.W = (550 : K) ∧
      v.Has [(0, 30), (3, 120), (4.4, 120), (11.4, 140), (12.8, 140)]) := by
  have acc : ∀ axs axw : List K, axs.length + 1 = axw.length →
      ∃ v, Vehicle.new axs axw = .ok v ∧ v.Has ((axleCoords 0 axs).zip axw) := by
    intro axs axw h
    obtain ⟨v, hv⟩ := ((C56_coordinates axs axw).1).2 h.symm
    exact ⟨v, hv, Vehicle.new_has hv⟩
  refine ⟨?_, ?_, ?_, ?_, ?_, ?_, ?_, ?_⟩
  · obtain ⟨v, h1, h2⟩ := acc [] [160] rfl
    exact ⟨v, h1, h2⟩
  · obtain ⟨v, h1, h2⟩ := acc [] [80] rfl
    exact ⟨v, h1, h2⟩
  · obtain ⟨v, h1, h2⟩ := acc [1.2] [110, 110] rfl
    refine ⟨v, h1, ?_⟩
    convert h2 using 1
    simp [axleCoords]
  · obtain ⟨v, h1, h2⟩ := acc [1.2] [300 * a, 300 * a] rfl
    refine ⟨v, h1, ?_⟩
    convert h2 using 1
    simp [axleCoords, mul_comm]
  · obtain ⟨v, h1, h2⟩ := acc [1.6, 1.6, 1.6] (List.replicate 4 (250 * a)) rfl
    refine ⟨v, h1, ?_⟩
    convert h2 using 1
    simp [axleCoords, mul_comm, List.replicate]
    norm_num
  · obtain ⟨v, h1, h2⟩ := acc [1.8, inner, 1.8] (List.replicate 4 (a * 10)) rfl
    refine ⟨v, h1, ?_, ?_⟩
    · rw [h2.weight]
      simp [axleCoords, List.replicate]
      ring
    · convert h2 using 1
      simp [axleCoords, mul_comm, List.replicate]
      ring
  · obtain ⟨v, h1, h2⟩ := acc [3.6, 1.2, 6.6, 6.6] [50, 125, 125, 175, 150] rfl
    refine ⟨v, h1, ?_, ?_⟩
    · rw [h2.weight]
      simp [axleCoords]
      norm_num
    · convert h2 using 1
      simp [axleCoords]
      norm_num
  · obtain ⟨v, h1, h2⟩ := acc [3, 1.4, 7, 1.4] [30, 120, 120, 140, 140] rfl
    refine ⟨v, h1, ?_, ?_⟩
    · rw [h2.weight]
      simp [axleCoords]
      norm_num
    · convert h2 using 1
      simp [axleCoords]
      norm_num

/-- **C87**, Cooper — for every E-number: eighteen axles, two locomotives of 7.1 E kip 56 ft
apart, the driving axles weighing E kip; the wheelbase is 104 ft whatever E is. -/
theorem C87_cooper (E : K) : ∃ v, getCooper E = .ok v ∧ v.noAxles = 18 ∧
    v.W = 2 * (7.1 * E * 4.4482216) ∧ v.L = 104 * 0.3048 ∧
    (∀ i, i < 9 → v.axw.getD (i + 9) 0 = v.axw.getD i 0 ∧
      v.coords.getD (i + 9) 0 = v.coords.getD i 0 + 56 * 0.3048) ∧
    (∀ i, 1 ≤ i → i ≤ 4 → v.axw.getD i 0 = E * 4.4482216) ∧
    (0 ≤ E → ∀ w ∈ v.axw, 0 ≤ w ∧ w ≤ E * 4.4482216) := by
  refine ⟨_, rfl, rfl, ?_, ?_, ?_, ?_, ?_⟩
  · simp
    ring
  · simp
    norm_num
  · intro i hi
    interval_cases i <;> simp [axleCoords] <;> norm_num
  · intro i h1 h2
    interval_cases i <;> simp <;> left <;> ring
  · intro hE w hw
    simp only [List.map_cons, List.map_nil, List.cons_append, List.nil_append, List.mem_cons,
      List.not_mem_nil, or_false] at hw
    rcases hw with h | h | h | h | h | h | h | h | h | h | h | h | h | h | h | h | h | h <;>
      rw [h] <;> refine ⟨by positivity, ?_⟩ <;> norm_num <;> linarith

/-- The chunk of spacings of one group: the gap before it and its own spacings. -/
def laChunk (g : K) : List K := [g, 1.7, 1.1, 1.7]

theorem laLoop (spacing : K) (m : ℕ) (a b : List K) :
    (List.range m).foldl (fun (s : List K × List K) _ =>
      (s.1 ++ ([spacing - ([1.7, 1.1, 1.7] : List K).sum] ++ [1.7, 1.1, 1.7]),
        s.2 ++ [300, 300, 300, 300])) (a, b) =
      (a ++ (List.replicate m (laChunk (spacing - 4.5))).flatten,
        b ++ List.replicate (4 * m) 300) := by
  have h45 : spacing - ([1.7, 1.1, 1.7] : List K).sum = spacing - 4.5 := by
    simp
    norm_num
  rw [h45]
  induction m with
  | zero => simp
  | succ m ih =>
    rw [List.range_succ, List.foldl_append, ih]
    simp only [List.foldl_cons, List.foldl_nil, List.replicate_succ', List.flatten_append,
      Prod.mk.injEq]
    refine ⟨by simp [laChunk], ?_⟩
    rw [show 4 * (m + 1) = 4 * m + 4 by ring, List.replicate_add, List.append_assoc]
    rfl

theorem laChunks_coords (spacing : K) (m : ℕ) (y : K) (k j : ℕ) (hk : k < m) (hj : j < 4) :
    (axleCoords y ((List.replicate m (laChunk (spacing - 4.5))).flatten)).getD (4 * k + 1 + j) 0 =
      y + (spacing - 4.5) + k * spacing + ([0, 1.7, 2.8, 4.5] : List K).getD j 0 := by
  induction m generalizing y k with
  | zero => omega
  | succ m ih =>
    simp only [List.replicate_succ, List.flatten_cons, laChunk, List.cons_append, List.nil_append,
      axleCoords]
    cases k with
    | zero =>
      cases m with
      | zero => interval_cases j <;> simp [axleCoords] <;> ring
      | succ m =>
        interval_cases j <;> simp [axleCoords, List.replicate_succ, laChunk] <;> ring
    | succ k =>
      have := ih (y + (spacing - 4.5) + 1.7 + 1.1 + 1.7) k (by omega)
      rw [show 4 * (k + 1) + 1 + j = (4 * k + 1 + j) + 4 by ring]
      simp only [List.getD_cons_succ]
      unfold laChunk at this
      rw [this]
      push_cast
      ring

/-- **C87**, rail — the LA model is available exactly for group spacings from 12 to 20 m and at
least one group.  Whatever the number of groups, it is a leading axle of 1.2 times the axle weight
followed 2 m behind by the groups of four axles, the groups `spacing` apart centre to centre, so
that `4 n + 1` axles weigh `(4 n + 1.2)` axle weights over a wheelbase of
`6.5 + (n - 1) spacing`. -/
theorem C87_la_rail (count : ℤ) (spacing weight : K) :
    ((∃ v, getLaRail count spacing weight = .ok v) ↔ 12 ≤ spacing ∧ spacing ≤ 20 ∧ 1 ≤ count) ∧
    ∀ v, getLaRail count spacing weight = .ok v → (v.noAxles : ℤ) = 4 * count + 1 ∧
      v.W = (4 * count + 1.2) * weight ∧ v.L = 6.5 + (count - 1) * spacing ∧
      v.coords.getD 0 0 = 0 ∧ v.axw.getD 0 0 = 1.2 * weight ∧
      ∀ k j : ℕ, (k : ℤ) < count → j < 4 → v.axw.getD (4 * k + 1 + j) 0 = weight ∧
        v.coords.getD (4 * k + 1 + j) 0 =
          2 + k * spacing + ([0, 1.7, 2.8, 4.5] : List K).getD j 0 := by
  have hnew : ∀ m : ℕ, ∃ v, Vehicle.new
      ([2] ++ [1.7, 1.1, 1.7] ++ (List.replicate m (laChunk (spacing - 4.5))).flatten)
      (([360] ++ [300, 300, 300, 300] ++ List.replicate (4 * m) (300 : K)).map
        fun w => weight / 300 * w) = .ok v := by
    intro m
    refine ((C56_coordinates _ _).1).2 ?_
    simp [laChunk]
    ring
  constructor
  · constructor
    · rintro ⟨v, h⟩
      unfold getLaRail at h
      split_ifs at h with h1 h2
      push Not at h1 h2
      exact ⟨h1.1, h1.2, h2⟩
    · rintro ⟨h1, h2, h3⟩
      unfold getLaRail
      rw [if_neg (by push Not; exact ⟨h1, h2⟩), if_neg (by omega)]
      simp only [laLoop]
      exact hnew _
  · intro v h
    unfold getLaRail at h
    split_ifs at h with h1 h2
    simp only [laLoop] at h
    obtain ⟨m, rfl⟩ : ∃ m : ℕ, count = (m : ℤ) + 1 := ⟨(count - 1).toNat, by omega⟩
    rw [show (((m : ℤ) + 1) + 1 - 2).toNat = m by omega] at h
    obtain ⟨-, rfl⟩ := Vehicle.new_ok h
    refine ⟨?_, ?_, ?_, ?_, ?_, ?_⟩
    · simp
      ring
    · simp [List.sum_replicate]
      field_simp
      ring
    · simp [laChunk, List.sum_replicate]
      ring
    · simp [axleCoords]
    · simp
      ring
    · intro k j hk hj
      constructor
      · have : ∀ i, i < 4 * m + 4 → (([360] ++ [300, 300, 300, 300] ++
            List.replicate (4 * m) (300 : K)).map fun w => weight / 300 * w).getD (i + 1) 0 =
              weight := by
          intro i hi
          have e : ([360] ++ [300, 300, 300, 300] ++ List.replicate (4 * m) (300 : K)) =
              360 :: List.replicate (4 + 4 * m) 300 := by
            rw [List.replicate_add]
            rfl
          rw [e]
          simp only [List.map_cons, List.map_replicate, List.getD_cons_succ]
          rw [List.getD_eq_getElem?_getD, List.getElem?_replicate, if_pos (by omega)]
          simp
        have := this (4 * k + j) (by omega)
        rw [show 4 * k + 1 + j = 4 * k + j + 1 by ring]
        exact this
      · simp only [List.cons_append, List.nil_append, axleCoords]
        cases k with
        | zero =>
          cases m with
          | zero => interval_cases j <;> simp [axleCoords] <;> ring
          | succ m =>
            interval_cases j <;> simp [axleCoords, List.replicate_succ, laChunk] <;> ring
        | succ k =>
          have := laChunks_coords spacing m (0 + 2 + 1.7 + 1.1 + 1.7) k j (by omega) hj
          rw [show 4 * (k + 1) + 1 + j = (4 * k + 1 + j) + 4 by ring]
          simp only [List.getD_cons_succ]
          rw [this]
          push_cast
          ring

/-- **C87**, B-doubles — the documented choices 0, 1 and 2 have the documented variable spacings;
the axles weigh 68 t. -/
theorem C87_abag_bdouble_partial : ∀ i : ℕ, i < 3 → ∃ v, getAbagBdouble (i : ℤ) = .ok v ∧
    v.noAxles = 9 ∧ v.axs.getD 2 0 = 5.5 + 0.5 * (i : K) ∧ v.axs.getD 5 0 = 6.5 - 0.5 * (i : K) ∧
    v.W = 68 * 9.81 := by
  intro i hi
  interval_cases i <;> refine ⟨_, rfl, rfl, ?_, ?_, ?_⟩ <;> simp [abagBdoubleAw] <;> norm_num

/-- **C87 fails** for the Australian assessment trucks: the "68.5 t" B-double weighs 68 t, and
the "45 t" semi-trailer 53 t, because two of the three axles of its rear group carry a half of
22.5 t and the last one a third. -/
theorem C87_abag_violation : ∀ i : ℕ, i < 4 →
    ((i < 3 → ∃ v : Vehicle K, getAbagBdouble (i : ℤ) = .ok v ∧ v.W ≠ 68.5 * 9.81) ∧
    ∃ v : Vehicle K, getAbagSemitrailer (i : ℤ) = .ok v ∧ v.W = 53 * 9.81 ∧ v.W ≠ 45 * 9.81 ∧
      v.axw.getD 3 0 ≠ v.axw.getD 5 0) := by
  intro i hi
  constructor
  · intro h3
    interval_cases i <;> refine ⟨_, rfl, ?_⟩ <;> simp [abagBdoubleAw] <;> norm_num
  · interval_cases i <;> refine ⟨_, rfl, ?_, ?_, ?_⟩ <;> simp [abagSemitrailerAw] <;> norm_num

/-- A negative index selects from the end: `get_abag_bdouble(-1)` is the third choice, and only
indices below -3 or above 2 raise. -/
theorem C87_abag_index (i : ℤ) :
    ((∃ v : Vehicle K, getAbagBdouble i = .ok v) ↔ -3 ≤ i ∧ i < 3) ∧
    ((∃ v : Vehicle K, getAbagSemitrailer i = .ok v) ↔ -4 ≤ i ∧ i < 4) := by
  constructor
  · constructor
    · rintro ⟨v, h⟩
      by_contra hc
      have : listIndex (abagBdoubleAs : List (List K)) i = .error .indexError := by
        unfold listIndex
        by_cases h0 : 0 ≤ i
        · rw [if_pos h0, List.getElem?_eq_none (by simp [abagBdoubleAs]; omega)]
        · rw [if_neg h0, if_neg (by simp [abagBdoubleAs]; omega)]
      unfold getAbagBdouble at h
      rw [this] at h
      cases h
    · rintro ⟨h1, h2⟩
      interval_cases i <;> exact ⟨_, rfl⟩
  · constructor
    · rintro ⟨v, h⟩
      by_contra hc
      have : listIndex (abagSemitrailerAs : List (List K)) i = .error .indexError := by
        unfold listIndex
        by_cases h0 : 0 ≤ i
        · rw [if_pos h0, List.getElem?_eq_none (by simp [abagSemitrailerAs]; omega)]
        · rw [if_neg h0, if_neg (by simp [abagSemitrailerAs]; omega)]
      unfold getAbagSemitrailer at h
      rw [this] at h
      cases h
    · rintro ⟨h1, h2⟩
      interval_cases i <;> exact ⟨_, rfl⟩

/-- A rail load of three groups at 13 m. -/
example : ∃ v : Vehicle ℚ, getLaRail 3 13 300 = .ok v ∧ v.W = 3960 ∧ v.L = 32.5 ∧
    v.coords.getD 9 0 = 28 := by
  refine ⟨_, rfl, ?_, ?_, ?_⟩ <;> decide +kernel

end PyCBA
