import Verif.Build.Model
import Mathlib.Tactic.Linarith
import Mathlib.Tactic.FinCases
import Mathlib.Data.Rat.Floor
import Mathlib.Data.List.TakeWhile

/-!
C44, C45 and C74: member type names, support names and beam strings.
-/

set_option linter.unusedSectionVars false
set_option linter.unusedSimpArgs false

namespace PyCBA

variable {K : Type*} [Field K] [LinearOrder K]

/-- `s` is the word `w` up to white space around it and the case of its letters (`w` given
with both cases of each letter). -/
def Spells (w : List (Char × Char)) (s : List Char) : Prop :=
  ∃ pre mid post, s = pre ++ mid ++ post ∧ (∀ c ∈ pre, pySpace c) ∧ (∀ c ∈ post, pySpace c) ∧
    List.Forall₂ (fun p c => c = p.1 ∨ c = p.2) w mid

theorem dropWhile_all {p : Char → Bool} (l m : List Char) (h : ∀ c ∈ l, p c) :
    (l ++ m).dropWhile p = m.dropWhile p := by
  induction l with
  | nil => rfl
  | cons a l ih =>
    simp only [List.cons_append, List.dropWhile_cons, h a List.mem_cons_self, if_true]
    exact ih fun c hc => h c (List.mem_cons_of_mem _ hc)

theorem pyStrip_eq (pre mid post : List Char) (h1 : ∀ c ∈ pre, pySpace c)
    (h2 : ∀ c ∈ post, pySpace c) (hm : ∀ c ∈ mid, pySpace c = false) :
    pyStrip (pre ++ mid ++ post) = mid := by
  cases mid with
  | nil =>
    unfold pyStrip
    rw [List.append_nil]
    have : (pre ++ post).dropWhile pySpace = [] := by
      rw [List.dropWhile_eq_nil_iff]
      intro c hc
      rcases List.mem_append.1 hc with h | h
      · exact h1 c h
      · exact h2 c h
    rw [this]
    rfl
  | cons a mid =>
    unfold pyStrip
    rw [List.append_assoc, dropWhile_all _ _ h1, List.cons_append, List.dropWhile_cons,
      hm a List.mem_cons_self]
    simp only [Bool.false_eq_true, if_false]
    rw [← List.cons_append, List.reverse_append, dropWhile_all _ _ (by simpa using h2)]
    have : ((a :: mid).reverse).dropWhile pySpace = (a :: mid).reverse := by
      rcases List.eq_nil_or_concat (a :: mid) with h | ⟨l, b, h⟩
      · cases h
      · rw [h]
        simp only [List.concat_eq_append, List.reverse_append, List.reverse_cons, List.reverse_nil,
          List.nil_append, List.cons_append, List.dropWhile_cons]
        rw [hm b (by rw [h]; simp)]
        simp
    rw [this, List.reverse_reverse]

theorem pyStrip_split (s : List Char) : ∃ pre post, s = pre ++ pyStrip s ++ post ∧
    (∀ c ∈ pre, pySpace c) ∧ ∀ c ∈ post, pySpace c := by
  refine ⟨s.takeWhile pySpace, ((s.dropWhile pySpace).reverse.takeWhile pySpace).reverse, ?_,
    fun c hc => List.mem_takeWhile_imp hc, fun c hc => ?_⟩
  · unfold pyStrip
    rw [List.append_assoc, ← List.reverse_append, List.takeWhile_append_dropWhile,
      List.reverse_reverse, List.takeWhile_append_dropWhile]
  · exact List.mem_takeWhile_imp (List.mem_reverse.1 hc)

/-- Folding the case: `f` sends exactly the two given cases of each letter to the first one. -/
theorem spells_iff (f : Char → Char) (w : List (Char × Char)) (s : List Char)
    (hf : ∀ p ∈ w, ∀ c, f c = p.1 ↔ (c = p.1 ∨ c = p.2))
    (hs : ∀ p ∈ w, pySpace p.1 = false ∧ pySpace p.2 = false) :
    (pyStrip s).map f = w.map Prod.fst ↔ Spells w s := by
  have key : ∀ (w : List (Char × Char)) (mid : List Char),
      (∀ p ∈ w, ∀ c, f c = p.1 ↔ (c = p.1 ∨ c = p.2)) →
      (mid.map f = w.map Prod.fst ↔ List.Forall₂ (fun p c => c = p.1 ∨ c = p.2) w mid) := by
    intro w
    induction w with
    | nil => intro mid _; simp
    | cons p w ih =>
      intro mid h
      cases mid with
      | nil => simp
      | cons c mid =>
        simp only [List.map_cons, List.cons.injEq, List.forall₂_cons]
        rw [h p List.mem_cons_self c, ih mid fun q hq => h q (List.mem_cons_of_mem _ hq)]
  rw [key w _ hf]
  constructor
  · intro h
    obtain ⟨pre, post, e, h1, h2⟩ := pyStrip_split s
    exact ⟨pre, pyStrip s, post, e, h1, h2, h⟩
  · rintro ⟨pre, mid, post, rfl, h1, h2, h⟩
    rw [pyStrip_eq _ _ _ h1 h2]
    · exact h
    · clear key hf
      induction h with
      | nil => simp
      | cons hab _ ih =>
        intro c hc
        rcases List.mem_cons.1 hc with rfl | hc
        · rcases hab with rfl | rfl
          · exact (hs _ List.mem_cons_self).1
          · exact (hs _ List.mem_cons_self).2
        · exact ih (fun p hp => hs p (List.mem_cons_of_mem _ hp)) c hc

theorem char_eq_iff (c d : Char) : c = d ↔ c.toNat = d.toNat :=
  ⟨fun h => h ▸ rfl, fun h => Char.ext (UInt32.toNat_inj.1 h)⟩

theorem toUpper_eq (c u : Char) (h1 : 65 ≤ u.toNat) (h2 : u.toNat ≤ 90) :
    c.toUpper = u ↔ c = u ∨ c.toNat = u.toNat + 32 := by
  rw [char_eq_iff, char_eq_iff c u]
  unfold Char.toUpper
  split
  · rename_i h
    obtain ⟨ha, hb⟩ := h
    have ha : 97 ≤ c.toNat := ha
    have hb : c.toNat ≤ 122 := hb
    have : (c.val + ('A'.val - 'a'.val)).toNat = c.toNat - 32 := by
      rw [UInt32.toNat_add, show ('A'.val - 'a'.val).toNat = 2^32 - 32 from rfl]
      change (c.toNat + _) % _ = _
      omega
    change (c.val + ('A'.val - 'a'.val)).toNat = _ ↔ _
    rw [this]
    omega
  · rename_i h
    have : ¬ (97 ≤ c.toNat ∧ c.toNat ≤ 122) := h
    omega

theorem toLower_eq (c u : Char) (h1 : 97 ≤ u.toNat) (h2 : u.toNat ≤ 122) :
    c.toLower = u ↔ c = u ∨ c.toNat + 32 = u.toNat := by
  rw [char_eq_iff, char_eq_iff c u]
  unfold Char.toLower
  split
  · rename_i h
    obtain ⟨ha, hb⟩ := h
    have ha : 65 ≤ c.toNat := ha
    have hb : c.toNat ≤ 90 := hb
    have : (c.val + ('a'.val - 'A'.val)).toNat = c.toNat + 32 := by
      rw [UInt32.toNat_add, show ('a'.val - 'A'.val).toNat = 32 from rfl]
      change (c.toNat + _) % _ = _
      omega
    change (c.val + ('a'.val - 'A'.val)).toNat = _ ↔ _
    rw [this]
    omega
  · rename_i h
    have : ¬ (65 ≤ c.toNat ∧ c.toNat ≤ 90) := h
    omega
/-! ## C74 -/

/-- The name of a member type, each letter in both cases. -/
def EType.word : EType → List (Char × Char)
  | .FF => [('F', 'f'), ('F', 'f')]
  | .FP => [('F', 'f'), ('P', 'p')]
  | .PF => [('P', 'p'), ('F', 'f')]
  | .PP => [('P', 'p'), ('P', 'p')]

theorem word_spells (t : EType) (s : List Char) :
    pyUpper (pyStrip s) = t.word.map Prod.fst ↔ Spells t.word s := by
  apply spells_iff
  · have hF : ∀ c : Char, c.toUpper = 'F' ↔ (c = 'F' ∨ c = 'f') := fun c => by
      rw [toUpper_eq c 'F' (by decide) (by decide), char_eq_iff c 'f']; rfl
    have hP : ∀ c : Char, c.toUpper = 'P' ↔ (c = 'P' ∨ c = 'p') := fun c => by
      rw [toUpper_eq c 'P' (by decide) (by decide), char_eq_iff c 'p']; rfl
    intro p hp
    cases t <;> simp [EType.word] at hp <;> (try rcases hp with rfl | rfl) <;>
      (try subst hp) <;> assumption
  · cases t <;> decide

/-- **C74**, names: a string is a member type exactly when it spells its two letters, in any
case and with any white space around. -/
theorem C74_names (s : List Char) (t : EType) : coerce (.name s) = .ok t ↔ Spells t.word s := by
  rw [← word_spells]
  simp only [coerce]
  split_ifs with h1 h2 h3 h4 <;> cases t <;> simp_all [EType.word]

/-- **C74**: any other string raises. -/
theorem C74_names_else (s : List Char) (h : ∀ t : EType, ¬ Spells t.word s) :
    coerce (.name s) = .error .valueError := by
  cases hc : coerce (.name s) with
  | ok t => exact absurd ((C74_names s t).1 hc) (h t)
  | error e =>
    simp only [coerce] at hc
    split_ifs at hc <;> cases hc
    rfl

theorem pyInt_intCast (n : ℤ) : pyInt (n : ℚ) = n := by
  simp [pyInt]

/-- **C74**, codes: a whole number is a member type exactly when it is its code (so codes and
names round-trip), and otherwise raises; arrays of other than one value raise. -/
theorem C74_codes_partial (n : ℤ) (t : EType) :
    (coerce (.num [(n : ℚ)]) = .ok t ↔ n = t.code) ∧
    ((∀ t : EType, n ≠ t.code) → coerce (.num [(n : ℚ)]) = .error .valueError) ∧
    ∀ vals : List ℚ, vals.length ≠ 1 → coerce (.num vals) = .error .valueError := by
  refine ⟨?_, fun h => ?_, fun vals h => ?_⟩
  · simp only [coerce, pyInt_intCast]
    split_ifs with h1 h2 h3 h4 <;> cases t <;> simp_all [EType.code]
  · have h1 := h .FF
    have h2 := h .FP
    have h3 := h .PF
    have h4 := h .PP
    simp only [EType.code] at h1 h2 h3 h4
    simp only [coerce, pyInt_intCast]
    rw [if_neg h1, if_neg h2, if_neg h3, if_neg h4]
  · match vals with
    | [] => rfl
    | [_] => simp at h
    | _ :: _ :: _ => rfl

/-- C74's full statement fails: a fraction is cut down to a code instead of raising. -/
theorem C74_fraction_violation : ∃ q : ℚ, (∀ t : EType, q ≠ t.code) ∧
    coerce (.num [q]) = .ok .FP := by
  refine ⟨27 / 10, fun t => by cases t <;> simp [EType.code] <;> norm_num, by decide +kernel⟩

example : coerce (.name " fP\n".toList) = .ok .FP ∧ Spells EType.FP.word " fP\n".toList ∧
    coerce (.name "FX".toList) = .error .valueError := by
  refine ⟨by decide +kernel, (C74_names _ _).1 (by decide +kernel), by decide +kernel⟩

/-! ## C44 -/

/-- A lower-case word with both cases of its letters. -/
def bothCases (w : String) : List (Char × Char) := w.toList.map fun c => (c, c.toUpper)

/-- The documented meaning of a support, `utils.py` 91-107: names and springs. -/
def SupportMeans : SupportSpec K → List K → Prop
  | .name s, p =>
    ((∃ w ∈ ["p", "pin", "pinned", "r", "roller"], Spells (bothCases w) s) ∧ p = [-1, 0]) ∨
    ((∃ w ∈ ["e", "encastre", "fixed", "clamped"], Spells (bothCases w) s) ∧ p = [-1, -1]) ∨
    ((∃ w ∈ ["f", "free"], Spells (bothCases w) s) ∧ p = [0, 0])
  | .pair l, p => ∃ a b, l = [a, b] ∧ p = [a, b]

theorem lower_spells (w : String) (hw : ∀ c ∈ w.toList, 97 ≤ c.toNat ∧ c.toNat ≤ 122)
    (s : List Char) : pyLower (pyStrip s) = w.toList ↔ Spells (bothCases w) s := by
  have hu : ∀ c ∈ w.toList, c.toUpper.toNat + 32 = c.toNat := by
    intro c hc
    obtain ⟨h1, h2⟩ := hw c hc
    unfold Char.toUpper
    rw [dif_pos ⟨h1, h2⟩]
    change (c.val + ('A'.val - 'a'.val)).toNat + 32 = _
    rw [UInt32.toNat_add, show ('A'.val - 'a'.val).toNat = 2^32 - 32 from rfl]
    change (c.toNat + _) % _ + 32 = _
    omega
  have e : w.toList = (bothCases w).map Prod.fst := by
    simp [bothCases, Function.comp_def]
  rw [e]
  have hsp : ∀ c : Char, (65 ≤ c.toNat ∧ c.toNat ≤ 90) ∨ (97 ≤ c.toNat ∧ c.toNat ≤ 122) →
      pySpace c = false := by
    intro c hc
    simp only [pySpace, Bool.or_eq_false_iff, Bool.and_eq_false_iff, decide_eq_false_iff_not]
    omega
  apply spells_iff Char.toLower
  · intro p hp c
    obtain ⟨d, hd, rfl⟩ := List.mem_map.1 hp
    rw [toLower_eq c d (hw d hd).1 (hw d hd).2, char_eq_iff c d.toUpper]
    have := hu d hd
    simp only
    constructor <;> rintro (h | h)
    · exact Or.inl h
    · right; omega
    · exact Or.inl h
    · right; omega
  · intro p hp
    obtain ⟨d, hd, rfl⟩ := List.mem_map.1 hp
    have := hu d hd
    have := hw d hd
    exact ⟨hsp _ (Or.inr this), hsp _ (Or.inl (show 65 ≤ d.toUpper.toNat ∧ d.toUpper.toNat ≤ 90 by omega))⟩

set_option maxHeartbeats 2000000 in
/-- **C44**, one support: the pair returned is the documented meaning, and anything else is
refused with a `ValueError` (including hinges). -/
theorem C44_pair (s : SupportSpec K) :
    (∀ p, supportPair s = .ok p ↔ SupportMeans s p) ∧
    ((∀ p, ¬ SupportMeans s p) → supportPair s = .error .valueError) := by
  have key : ∀ p, supportPair s = .ok p ↔ SupportMeans s p := by
    intro p
    cases s with
    | name s =>
      simp only [SupportMeans, List.mem_cons, List.not_mem_nil, or_false, exists_eq_or_imp,
        exists_eq_left]
      simp only [← lower_spells "p" (by decide), ← lower_spells "pin" (by decide),
        ← lower_spells "pinned" (by decide), ← lower_spells "r" (by decide),
        ← lower_spells "roller" (by decide), ← lower_spells "e" (by decide),
        ← lower_spells "encastre" (by decide), ← lower_spells "fixed" (by decide),
        ← lower_spells "clamped" (by decide), ← lower_spells "f" (by decide),
        ← lower_spells "free" (by decide)]
      simp only [supportPair]
      generalize pyLower (pyStrip s) = key
      constructor
      · intro h
        split_ifs at h
        cases hl : lookupDof (K := K) key with
        | none => rw [hl] at h; cases h
        | some q =>
          rw [hl] at h
          cases h
          simp only [lookupDof, Option.map_eq_some_iff] at hl
          obtain ⟨e, he, rfl⟩ := hl
          have hk := List.find?_some he
          have hm := List.mem_of_find?_eq_some he
          simp only [decide_eq_true_eq] at hk
          subst hk
          simp only [supportDof, List.mem_cons, List.not_mem_nil, or_false] at hm
          rcases hm with rfl | rfl | rfl | rfl | rfl | rfl | rfl | rfl | rfl | rfl | rfl <;> simp
      · rintro (⟨rfl | rfl | rfl | rfl | rfl, rfl⟩ | ⟨rfl | rfl | rfl | rfl, rfl⟩ |
          ⟨rfl | rfl, rfl⟩) <;> rw [if_neg (by decide)] <;>
          simp [lookupDof, supportDof, List.find?_cons]
    | pair l =>
      simp only [supportPair, SupportMeans]
      match l with
      | [] => simp
      | [a] => simp
      | [a, b] => simp [eq_comm]
      | a :: b :: c :: l => simp
  refine ⟨key, fun h => ?_⟩
  cases hc : supportPair s with
  | ok p => exact absurd ((key p).1 hc) (h p)
  | error e =>
    cases s with
    | name s =>
      simp only [supportPair] at hc
      split_ifs at hc
      · cases hc; rfl
      · split at hc
        · cases hc
        · cases hc; rfl
    | pair l =>
      simp only [supportPair] at hc
      split_ifs at hc
      cases hc; rfl

theorem mapE_forall {α β : Type*} (f : α → Except PyErr β) (l : List α) (r : List β) :
    mapE f l = .ok r ↔ List.Forall₂ (fun a b => f a = .ok b) l r := by
  induction l generalizing r with
  | nil => simp [mapE, eq_comm]
  | cons a l ih =>
    simp only [mapE]
    cases hf : f a with
    | error e =>
      simp only [reduceCtorEq, false_iff]
      intro h
      cases h with
      | cons h1 _ => rw [hf] at h1; cases h1
    | ok b =>
      cases hm : mapE f l with
      | error e =>
        simp only [reduceCtorEq, false_iff]
        intro h
        cases h with
        | cons _ h2 => rw [(ih _).2 h2] at hm; cases hm
      | ok bs =>
        have h2 := (ih bs).1 hm
        simp only [Except.ok.injEq]
        constructor
        · rintro rfl
          exact List.Forall₂.cons hf h2
        · intro h
          cases h with
          | cons h1 h3 =>
            rw [hf] at h1
            cases h1
            have := (ih _).2 h3
            rw [hm] at this
            cases this
            rfl

theorem mapE_error {α β : Type*} (f : α → Except PyErr β) (l : List α) (e : PyErr)
    (hf : ∀ a ∈ l, ∀ e', f a = .error e' → e' = e) :
    (∃ r, mapE f l = .ok r) ∨ mapE f l = .error e := by
  induction l with
  | nil => exact Or.inl ⟨[], rfl⟩
  | cons a l ih =>
    simp only [mapE]
    cases ha : f a with
    | error e' => exact Or.inr (by rw [hf a List.mem_cons_self e' ha])
    | ok b =>
      rcases ih fun x hx => hf x (List.mem_cons_of_mem _ hx) with ⟨r, hr⟩ | hr
      · exact Or.inl ⟨b :: r, by rw [hr]⟩
      · exact Or.inr (by rw [hr])

theorem supportMeans_length {s : SupportSpec K} {p : List K} (h : SupportMeans s p) :
    p.length = 2 := by
  cases s with
  | name s => rcases h with ⟨_, rfl⟩ | ⟨_, rfl⟩ | ⟨_, rfl⟩ <;> rfl
  | pair l => obtain ⟨a, b, _, rfl⟩ := h; rfl

/-- **C44** — a list of supports gives the documented pairs in order, two entries per support,
and is refused with a `ValueError` when an entry has no meaning or the count is wrong. -/
theorem C44_supports (ss : List (SupportSpec K)) (n : Option ℕ) :
    (∀ R, supportsToR ss n = .ok R ↔ (∀ m, n = some m → ss.length = m) ∧
      ∃ ps, List.Forall₂ SupportMeans ss ps ∧ R = ps.flatten) ∧
    (∀ R, supportsToR ss n = .ok R → R.length = 2 * ss.length) ∧
    ((∀ R, supportsToR ss n ≠ .ok R) → supportsToR ss n = .error .valueError) := by
  have key : ∀ R, supportsToR ss n = .ok R ↔ (∀ m, n = some m → ss.length = m) ∧
      ∃ ps, List.Forall₂ SupportMeans ss ps ∧ R = ps.flatten := by
    intro R
    have e : ∀ ps : List (List K), List.Forall₂ SupportMeans ss ps ↔
        mapE supportPair ss = .ok ps := by
      intro ps
      rw [mapE_forall]
      constructor
      · exact fun h => h.imp fun a b hab => ((C44_pair a).1 b).2 hab
      · exact fun h => h.imp fun a b hab => ((C44_pair a).1 b).1 hab
    simp only [e]
    unfold supportsToR
    cases n with
    | none =>
      simp only [Option.any_none, Bool.false_eq_true, if_false, reduceCtorEq, false_implies,
        implies_true, true_and]
      cases hm : mapE supportPair ss with
      | error e => simp
      | ok ps => simp [eq_comm]
    | some m =>
      by_cases h : m = ss.length
      · subst h
        simp only [ne_eq, Option.any_some, not_true_eq_false, decide_false, Bool.false_eq_true,
          if_false, Option.some.injEq, forall_eq', true_and]
        cases hm : mapE supportPair ss with
        | error e => simp
        | ok ps => simp [eq_comm]
      · simp [h, eq_comm]
  refine ⟨key, fun R h => ?_, fun h => ?_⟩
  · obtain ⟨-, ps, hf, rfl⟩ := (key R).1 h
    clear key h
    induction hf with
    | nil => rfl
    | cons h1 _ ih =>
      simp only [List.flatten_cons, List.length_append, List.length_cons, ih,
        supportMeans_length h1]
      ring
  · unfold supportsToR at h ⊢
    split_ifs with h1
    · rfl
    · rw [if_neg h1] at h
      rcases mapE_error supportPair ss .valueError (fun a _ e' he => by
        by_cases hp : ∃ p, SupportMeans a p
        · obtain ⟨p, hp⟩ := hp
          rw [((C44_pair a).1 p).2 hp] at he
          cases he
        · push Not at hp
          rw [(C44_pair a).2 hp] at he
          cases he
          rfl) with ⟨r, hr⟩ | hr
      · rw [hr] at h
        exact absurd rfl (h _)
      · rw [hr]

example : supportsToR [.name " Pinned".toList, .pair [5, 0], .name "E".toList] (some 3) =
      .ok [(-1 : ℚ), 0, 5, 0, -1, -1] ∧
    supportsToR [.name "h".toList, .pair [(5 : ℚ), 0]] none = .error .valueError := by
  refine ⟨by decide +kernel, by decide +kernel⟩

/-! ## C45 -/

/-- A beam string: a terminal, then a length and a terminal for each span. -/
def renderBeam (t : Char) (items : List (List Char × Char)) : List Char :=
  t :: items.flatMap fun it => it.1 ++ [it.2]

/-- The restraints a terminal stands for, `utils.py` 149-154. -/
def termMeans (t : Char) : List K :=
  if t = 'p' ∨ t = 'r' then [-1, 0] else if t = 'e' then [-1, -1] else [0, 0]

theorem termDof_eq {t : Char} (ht : isTerm t) : termDof (K := K) t = termMeans t := by
  simp only [isTerm, Bool.or_eq_true, decide_eq_true_eq] at ht
  rcases ht with (((rfl | rfl) | rfl) | rfl) | rfl <;>
    simp [termDof, termMeans, lookupDof, supportDof, List.find?_cons]

theorem splitOnP_plain (l : List Char) (h : ∀ c ∈ l, isTerm c = false) :
    l.splitOnP isTerm = [l] := List.splitOnP_eq_singleton h

theorem filter_plain (l : List Char) (h : ∀ c ∈ l, isTerm c = false) : l.filter isTerm = [] := by
  rw [List.filter_eq_nil_iff]
  intro c hc
  rw [h c hc]
  simp

theorem splitOnP_render (t : Char) (ht : isTerm t) (items : List (List Char × Char))
    (h : ∀ it ∈ items, (∀ c ∈ it.1, isTerm c = false) ∧ isTerm it.2) (pre post : List Char)
    (hpre : ∀ c ∈ pre, isTerm c = false) (hpost : ∀ c ∈ post, isTerm c = false) :
    (pre ++ renderBeam t items ++ post).splitOnP isTerm = pre :: (items.map Prod.fst ++ [post]) ∧
    (pre ++ renderBeam t items ++ post).filter isTerm = t :: items.map Prod.snd := by
  induction items generalizing t pre with
  | nil =>
    constructor
    · simp only [renderBeam, List.flatMap_nil, List.map_nil, List.nil_append, List.append_assoc,
        List.cons_append]
      rw [List.splitOnP_append_cons_of_forall_mem hpre t ht, splitOnP_plain post hpost]
    · simp [renderBeam, ht, filter_plain pre hpre, filter_plain post hpost]
  | cons it items ih =>
    obtain ⟨h1, h2⟩ := h it List.mem_cons_self
    obtain ⟨e1, e2⟩ := ih it.2 h2 (fun x hx => h x (List.mem_cons_of_mem _ hx)) it.1 h1
    have e : pre ++ renderBeam t (it :: items) ++ post =
        pre ++ t :: (it.1 ++ renderBeam it.2 items ++ post) := by
      simp [renderBeam]
    rw [e]
    constructor
    · rw [List.splitOnP_append_cons_of_forall_mem hpre t ht, e1]
      rfl
    · rw [List.filter_append, filter_plain pre hpre, List.filter_cons, if_pos ht, e2]
      rfl

/-- Every string with a terminal in it has the shape of a beam string with text around it. -/
theorem exists_render (s : List Char) (h : s.filter isTerm ≠ []) :
    ∃ pre t items post, s = pre ++ renderBeam t items ++ post ∧ isTerm t = true ∧
      (∀ it ∈ items, (∀ c ∈ it.1, isTerm c = false) ∧ isTerm it.2 = true) ∧
      (∀ c ∈ pre, isTerm c = false) ∧ ∀ c ∈ post, isTerm c = false := by
  induction s with
  | nil => simp at h
  | cons c s ih =>
    by_cases hs : s.filter isTerm = []
    · have hc : isTerm c = true := by
        by_contra hc
        rw [List.filter_cons_of_neg hc] at h
        exact h hs
      refine ⟨[], c, [], s, by simp [renderBeam], hc, by simp, by simp, ?_⟩
      intro d hd
      have := List.filter_eq_nil_iff.1 hs d hd
      simpa using this
    · obtain ⟨pre, t, items, post, rfl, h1, h2, h3, h4⟩ := ih hs
      by_cases hc : isTerm c = true
      · refine ⟨[], c, (pre, t) :: items, post, by simp [renderBeam], hc, ?_, by simp, h4⟩
        intro it hit
        rcases List.mem_cons.1 hit with rfl | hit
        · exact ⟨h3, h1⟩
        · exact h2 it hit
      · refine ⟨c :: pre, t, items, post, by simp, h1, h2, ?_, h4⟩
        intro d hd
        rcases List.mem_cons.1 hd with rfl | hd
        · simpa using hc
        · exact h3 d hd

/-- The conditions on the terminals, `utils.py` 152-154: at least one span, no hinge at an
end, no free or encastré end inside. -/
def GoodTerms (t : Char) (ts : List Char) : Prop :=
  ts ≠ [] ∧ t ≠ 'h' ∧ ts.getLast? ≠ some 'h' ∧ ∀ c ∈ ts.dropLast, c ≠ 'f' ∧ c ≠ 'e'

/-- What the string says: the lengths, the arbitrary rigidity, the restraints of the terminals
in order, and a release at the right end of each member left of a hinge. -/
def beamMeaning (t : Char) (ts : List Char) (L : List K) :
    List K × List K × List K × List EType :=
  (L, L.map fun _ => 300000, (t :: ts).flatMap termMeans,
    ts.map fun c => if c = 'h' then .FP else .FF)

theorem parse_render (toFloat : List Char → Option K) (s pre : List Char) (t : Char)
    (items : List (List Char × Char)) (post : List Char)
    (hs : pyLower s = pre ++ renderBeam t items ++ post) (ht : isTerm t = true)
    (hit : ∀ it ∈ items, (∀ c ∈ it.1, isTerm c = false) ∧ isTerm it.2 = true)
    (hpre : ∀ c ∈ pre, isTerm c = false) (hpost : ∀ c ∈ post, isTerm c = false) :
    (∀ r, parseBeamString toFloat s = .ok r ↔ GoodTerms t (items.map Prod.snd) ∧
      ∃ L, List.Forall₂ (fun it v => toFloat it.1 = some v) items L ∧
        r = beamMeaning t (items.map Prod.snd) L) ∧
    ((∀ r, parseBeamString toFloat s ≠ .ok r) →
      parseBeamString toFloat s = .error .valueError) := by
  obtain ⟨e1, e2⟩ := splitOnP_render t ht items hit pre post hpre hpost
  set ts := items.map Prod.snd with hts
  set g : List Char → Except PyErr K := fun x =>
    match toFloat x with | some v => .ok v | none => .error .valueError with hg
  have hgok : ∀ x v, g x = .ok v ↔ toFloat x = some v := by
    intro x v
    simp only [hg]
    cases toFloat x <;> simp
  have hgerr : ∀ x e, g x = .error e → e = .valueError := by
    intro x e
    simp only [hg]
    cases toFloat x <;> simp [eq_comm]
  have hf : ∀ L, mapE g (items.map Prod.fst) = .ok L ↔
      List.Forall₂ (fun it v => toFloat it.1 = some v) items L := by
    intro L
    rw [mapE_forall, List.forall₂_map_left_iff]
    simp only [hgok]
  have hsl : (pre :: (items.map Prod.fst ++ [post])).tail.dropLast = items.map Prod.fst := by
    simp
  have hdef : parseBeamString toFloat s =
      if (t :: ts).length < 2 then .error .valueError
      else if some t = some 'h' ∨ (t :: ts).getLast? = some 'h' then .error .valueError
      else if ts.dropLast.any fun t => t = 'f' || t = 'e' then .error .valueError
      else match mapE g (items.map Prod.fst) with
        | .error e => .error e
        | .ok L =>
          if (t :: ts).length - 1 ≠ L.length then .error .valueError
          else .ok (L, L.map fun _ => 300000, ((t :: ts).map termDof).flatten,
            ts.map fun t => if t = 'h' then .FP else .FF) := by
    simp only [parseBeamString, hs, e1, e2, hsl]
    rfl
  rw [hdef]
  have hgood : GoodTerms t ts ↔ ¬ (t :: ts).length < 2 ∧
      ¬ (some t = some 'h' ∨ (t :: ts).getLast? = some 'h') ∧
      ¬ (ts.dropLast.any fun t => t = 'f' || t = 'e') := by
    unfold GoodTerms
    cases hts' : ts with
    | nil => simp
    | cons a l =>
      rw [List.getLast?_cons_cons]
      have h3 : (¬ ((a :: l).dropLast.any fun t => t = 'f' || t = 'e') = true) ↔
          ∀ c ∈ (a :: l).dropLast, c ≠ 'f' ∧ c ≠ 'e' := by
        simp
      rw [h3]
      constructor
      · rintro ⟨_, p2, p3, p4⟩
        exact ⟨by simp, by rintro (h | h); exacts [p2 (Option.some.inj h), p3 h], p4⟩
      · rintro ⟨_, p2, p3⟩
        exact ⟨by simp, fun h => p2 (Or.inl (by rw [h])), fun h => p2 (Or.inr h), p3⟩
  have hdof : ((t :: ts).map termDof).flatten = (t :: ts).flatMap (termMeans (K := K)) := by
    rw [← List.flatMap_def]
    apply List.flatMap_congr
    intro c hc
    rcases List.mem_cons.1 hc with rfl | hc
    · exact termDof_eq ht
    · obtain ⟨it, hm, rfl⟩ := List.mem_map.1 hc
      exact termDof_eq (hit it hm).2
  constructor
  · intro r
    rw [hgood]
    split_ifs with c1 c2 c3
    · exact ⟨fun h => (by cases h), fun h => absurd c1 h.1.1⟩
    · exact ⟨fun h => (by cases h), fun h => absurd c2 h.1.2.1⟩
    · exact ⟨fun h => (by cases h), fun h => absurd c3 h.1.2.2⟩
    · simp only [c1, c2, c3, not_false_eq_true, true_and, Bool.not_eq_true]
      cases hm : mapE g (items.map Prod.fst) with
      | error e =>
        simp only [reduceCtorEq, false_iff]
        rintro ⟨L, hL, _⟩
        rw [(hf L).2 hL] at hm
        cases hm
      | ok L =>
        have hL := (hf L).1 hm
        have hlen : (t :: ts).length - 1 = L.length := by
          have := hL.length_eq
          simp [hts, this]
        simp only [hlen, ne_eq, not_true_eq_false, if_false, hdof, Except.ok.injEq]
        constructor
        · rintro rfl
          exact ⟨L, hL, rfl⟩
        · rintro ⟨L', hL', rfl⟩
          have := (hf L').2 hL'
          rw [hm] at this
          cases this
          rfl
  · intro h
    split_ifs at h ⊢ with c1 c2 c3
    · rfl
    · rfl
    · rfl
    · rcases mapE_error g (items.map Prod.fst) .valueError (fun a _ e he => hgerr a e he) with
        ⟨L, hL⟩ | hL
      · rw [hL] at h ⊢
        simp only at h ⊢
        split_ifs at h ⊢ with c4
        · rfl
        · exact absurd rfl (h _)
      · rw [hL]

/-- **C45**, partial — a string (letters in either case) that is a terminal followed by lengths
and terminals parses exactly when its terminals are allowed and its lengths are numbers, to
the beam it describes; otherwise it raises a `ValueError`.  Missing: strings with text before
the first or after the last terminal, which the documented grammar does not allow but the
parser accepts, see `C45_junk` and `C45_junk_violation`. -/
theorem C45_parse_partial (toFloat : List Char → Option K) (s : List Char) (t : Char)
    (items : List (List Char × Char)) (hs : pyLower s = renderBeam t items) (ht : isTerm t = true)
    (hit : ∀ it ∈ items, (∀ c ∈ it.1, isTerm c = false) ∧ isTerm it.2 = true) :
    (∀ r, parseBeamString toFloat s = .ok r ↔ GoodTerms t (items.map Prod.snd) ∧
      ∃ L, List.Forall₂ (fun it v => toFloat it.1 = some v) items L ∧
        r = beamMeaning t (items.map Prod.snd) L) ∧
    ((∀ r, parseBeamString toFloat s ≠ .ok r) →
      parseBeamString toFloat s = .error .valueError) :=
  parse_render toFloat s [] t items [] (by simpa using hs) ht hit (by simp) (by simp)

/-- **C45**, any string at all: without a terminal it is refused; otherwise the text before the
first and after the last terminal is ignored and the rest is read as in
`C45_parse_partial`. -/
theorem C45_junk (toFloat : List Char → Option K) (s : List Char) :
    ((∀ c ∈ pyLower s, isTerm c = false) → parseBeamString toFloat s = .error .valueError) ∧
    ((∃ c ∈ pyLower s, isTerm c = true) → ∃ pre t items post,
      pyLower s = pre ++ renderBeam t items ++ post ∧ isTerm t = true ∧
      (∀ it ∈ items, (∀ c ∈ it.1, isTerm c = false) ∧ isTerm it.2 = true) ∧
      (∀ c ∈ pre, isTerm c = false) ∧ (∀ c ∈ post, isTerm c = false) ∧
      (∀ r, parseBeamString toFloat s = .ok r ↔ GoodTerms t (items.map Prod.snd) ∧
        ∃ L, List.Forall₂ (fun it v => toFloat it.1 = some v) items L ∧
          r = beamMeaning t (items.map Prod.snd) L) ∧
      ((∀ r, parseBeamString toFloat s ≠ .ok r) →
        parseBeamString toFloat s = .error .valueError)) := by
  constructor
  · intro h
    simp only [parseBeamString, filter_plain _ h, List.length_nil]
    rfl
  · rintro ⟨c, hc, ht⟩
    obtain ⟨pre, t, items, post, h1, h2, h3, h4, h5⟩ := exists_render (pyLower s) (by
      intro h
      have := List.filter_eq_nil_iff.1 h c hc
      exact this ht)
    obtain ⟨a, b⟩ := parse_render toFloat s pre t items post h1 h2 h3 h4 h5
    exact ⟨pre, t, items, post, h1, h2, h3, h4, h5, a, b⟩

/-- A stand-in for `float` that reads unsigned whole numbers. -/
def readNat (s : List Char) : Option ℚ :=
  if s ≠ [] ∧ s.all Char.isDigit then
    some (s.foldl (fun n c => 10 * n + ((c.toNat - 48 : ℕ) : ℚ)) 0)
  else none

/-- C45's full statement fails: a number in front of the first terminal is dropped. -/
theorem C45_junk_violation : ∃ (s : List Char) (r : List ℚ × List ℚ × List ℚ × List EType),
    s = "7p40r".toList ∧ parseBeamString readNat s = .ok r ∧ r.1 = [40] := by
  refine ⟨_, ([40], [300000], [-1, 0, -1, 0], [.FF]), rfl, by decide +kernel, rfl⟩

/-- The documented example `E20H30R10F`, and an ill-formed string. -/
example : parseBeamString readNat "E20H30R10F".toList =
      .ok ([20, 30, 10], [300000, 300000, 300000], [-1, -1, 0, 0, -1, 0, 0, 0],
        [.FP, .FF, .FF]) ∧
    pyLower "E20H30R10F".toList =
      renderBeam 'e' [("20".toList, 'h'), ("30".toList, 'r'), ("10".toList, 'f')] ∧
    parseBeamString readNat "H20R".toList = .error .valueError := by
  refine ⟨by decide +kernel, by decide +kernel, by decide +kernel⟩

end PyCBA
