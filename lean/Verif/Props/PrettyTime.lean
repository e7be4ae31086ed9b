import Verif.Model.PrettyTime
import Mathlib.Tactic.IntervalCases
import Mathlib.Tactic.Linarith
import Mathlib.Tactic.NormNum
import Mathlib.Tactic.FieldSimp
import Mathlib.Tactic.Ring

/-! # C97: elapsed times as strings -/
namespace Wiz

/-- value of a character of a number: a blank counts as 0 -/
def Spec.digit (c : Char) : ℕ := if c = ' ' then 0 else c.toNat - '0'.toNat
/-- the number written by two characters -/
def Spec.twoDigits (a b : Char) : ℕ := 10 * Spec.digit a + Spec.digit b

open Spec

theorem fmt2d_two : ∀ n < 100, ∃ a b, fmt2d n = [a, b] ∧ twoDigits a b = n := by
  intro n hn
  have key : ∀ n < 100, (fmt2d n).length = 2 ∧ twoDigits ((fmt2d n).getD 0 ' ') ((fmt2d n).getD 1 ' ') = n := by decide
  obtain ⟨h1, h2⟩ := key n hn
  match h : fmt2d n, h1 with
  | [a, b], _ => rw [h] at h2; exact ⟨a, b, rfl, h2⟩

theorem fmt02d_two : ∀ n < 100, ∃ a b, fmt02d n = [a, b] ∧ twoDigits a b = n := by
  intro n hn
  have key : ∀ n < 100, (fmt02d n).length = 2 ∧ twoDigits ((fmt02d n).getD 0 ' ') ((fmt02d n).getD 1 ' ') = n := by decide
  obtain ⟨h1, h2⟩ := key n hn
  match h : fmt02d n, h1 with
  | [a, b], _ => rw [h] at h2; exact ⟨a, b, rfl, h2⟩

theorem two_fields (p q : ℕ) (hp : p < 100) (hq : q < 100) (u v : Char) : ∃ a b c d,
    fmt2d p ++ [u] ++ fmt02d q ++ [v] = [a, b, u, c, d, v] ∧ twoDigits a b = p ∧ twoDigits c d = q := by
  obtain ⟨a, b, h1, h2⟩ := fmt2d_two p hp
  obtain ⟨c, d, h3, h4⟩ := fmt02d_two q hq
  exact ⟨a, b, c, d, by rw [h1, h3]; rfl, h2, h4⟩

/-- C97: a time below 3 months (99 days) is written with six characters as two numbers with their units: seconds and
hundredths, minutes and seconds, hours and minutes, or days and hours, rounded down, the second number being below the
number of small units in a large one. -/
theorem C97_fields (t : ℝ) (ht : 0 ≤ t) :
    (t < 60 → ∃ a b c d, prettyTime t = [a, b, '.', c, d, 's'] ∧ twoDigits c d < 100 ∧
      (twoDigits a b : ℝ) + twoDigits c d / 100 ≤ t ∧ t < twoDigits a b + (twoDigits c d + 1) / 100) ∧
    (60 ≤ t → t < 3600 → ∃ a b c d, prettyTime t = [a, b, 'm', c, d, 's'] ∧ twoDigits c d < 60 ∧
      (60 * twoDigits a b + twoDigits c d : ℝ) ≤ t ∧ t < 60 * twoDigits a b + twoDigits c d + 1) ∧
    (3600 ≤ t → t < 86400 → ∃ a b c d, prettyTime t = [a, b, 'h', c, d, 'm'] ∧ twoDigits c d < 60 ∧
      (3600 * twoDigits a b + 60 * twoDigits c d : ℝ) ≤ t ∧ t < 3600 * twoDigits a b + 60 * (twoDigits c d + 1)) ∧
    (86400 ≤ t → t < 8553600 → ∃ a b c d, prettyTime t = [a, b, 'd', c, d, 'h'] ∧ twoDigits c d < 24 ∧
      (86400 * twoDigits a b + 3600 * twoDigits c d : ℝ) ≤ t ∧ t < 86400 * twoDigits a b + 3600 * (twoDigits c d + 1)) := by
  have hn : ¬ t < 0 := not_lt.mpr ht
  have fl := Nat.floor_le ht
  have fu := Nat.lt_floor_add_one t
  refine ⟨fun h => ?_, fun h1 h2 => ?_, fun h1 h2 => ?_, fun h1 h2 => ?_⟩
  · by_cases h1 : t < 1
    · have gl := Nat.floor_le (show 0 ≤ t * 100 by positivity)
      have gu := Nat.lt_floor_add_one (t * 100)
      have hc : ⌊t * 100⌋₊ < 100 := (Nat.floor_lt (by positivity)).mpr (by push_cast; linarith)
      obtain ⟨a, b, c, d, e1, e2, e3⟩ := two_fields 0 _ (by norm_num) hc '.' 's'
      refine ⟨a, b, c, d, ?_, by omega, ?_, ?_⟩
      · unfold prettyTime
        rw [if_neg hn, if_pos h1, ← e1]
      · rw [e2, e3]; push_cast; linarith
      · rw [e2, e3]; push_cast; linarith
    · have hs : ⌊t⌋₊ < 60 := (Nat.floor_lt ht).mpr (by push_cast; exact h)
      have hp : 0 ≤ (t - ⌊t⌋₊) * 100 := by nlinarith
      have gl := Nat.floor_le hp
      have gu := Nat.lt_floor_add_one ((t - ⌊t⌋₊) * 100)
      have hc : ⌊(t - ⌊t⌋₊) * 100⌋₊ < 100 := (Nat.floor_lt hp).mpr (by push_cast; linarith)
      obtain ⟨a, b, c, d, e1, e2, e3⟩ := two_fields ⌊t⌋₊ _ (by omega) hc '.' 's'
      refine ⟨a, b, c, d, ?_, by omega, ?_, ?_⟩
      · unfold prettyTime
        rw [if_neg hn, if_neg h1, if_pos h, ← e1]
      · rw [e2, e3]; linarith
      · rw [e2, e3]; linarith
  · have hd : ⌊t / 60⌋₊ = ⌊t⌋₊ / 60 := Nat.floor_div_ofNat t 60
    have hb : ⌊t⌋₊ < 3600 := (Nat.floor_lt ht).mpr (by push_cast; exact h2)
    obtain ⟨a, b, c, d, e1, e2, e3⟩ := two_fields (⌊t⌋₊ / 60) (⌊t⌋₊ % 60) (by omega) (by omega) 'm' 's'
    have hdm : (60 * (⌊t⌋₊ / 60 : ℕ) + (⌊t⌋₊ % 60 : ℕ) : ℝ) = ⌊t⌋₊ := by exact_mod_cast Nat.div_add_mod ⌊t⌋₊ 60
    refine ⟨a, b, c, d, ?_, by omega, ?_, ?_⟩
    · unfold prettyTime
      rw [if_neg hn, if_neg (by linarith), if_neg (by linarith), if_pos h2, ← e1, ← hd]
    · rw [e2, e3]; linarith
    · rw [e2, e3]; linarith
  · have hd : ⌊t / 3600⌋₊ = ⌊t⌋₊ / 3600 := Nat.floor_div_ofNat t 3600
    have hd2 : ⌊((⌊t⌋₊ % 3600 : ℕ) : ℝ) / 60⌋₊ = ⌊t⌋₊ % 3600 / 60 := by
      rw [Nat.floor_div_ofNat, Nat.floor_natCast]
    have hb : ⌊t⌋₊ < 86400 := (Nat.floor_lt ht).mpr (by push_cast; exact h2)
    obtain ⟨a, b, c, d, e1, e2, e3⟩ := two_fields (⌊t⌋₊ / 3600) (⌊t⌋₊ % 3600 / 60) (by omega) (by omega) 'h' 'm'
    have k1 : 3600 * (⌊t⌋₊ / 3600) + 60 * (⌊t⌋₊ % 3600 / 60) ≤ ⌊t⌋₊ := by omega
    have k2 : ⌊t⌋₊ + 1 ≤ 3600 * (⌊t⌋₊ / 3600) + 60 * (⌊t⌋₊ % 3600 / 60 + 1) := by omega
    have k1' : (3600 * (⌊t⌋₊ / 3600 : ℕ) + 60 * (⌊t⌋₊ % 3600 / 60 : ℕ) : ℝ) ≤ ⌊t⌋₊ := by exact_mod_cast k1
    have k2' : (⌊t⌋₊ + 1 : ℝ) ≤ 3600 * (⌊t⌋₊ / 3600 : ℕ) + 60 * ((⌊t⌋₊ % 3600 / 60 : ℕ) + 1) := by exact_mod_cast k2
    refine ⟨a, b, c, d, ?_, by omega, ?_, ?_⟩
    · unfold prettyTime
      rw [if_neg hn, if_neg (by linarith), if_neg (by linarith), if_neg (by linarith), if_pos h2, ← e1, ← hd, ← hd2]
    · rw [e2, e3]; linarith
    · rw [e2, e3]; linarith
  · have hd : ⌊t / 86400⌋₊ = ⌊t⌋₊ / 86400 := Nat.floor_div_ofNat t 86400
    have hd2 : ⌊((⌊t⌋₊ % 86400 : ℕ) : ℝ) / 3600⌋₊ = ⌊t⌋₊ % 86400 / 3600 := by
      rw [Nat.floor_div_ofNat, Nat.floor_natCast]
    have hb : ⌊t⌋₊ < 8553600 := (Nat.floor_lt ht).mpr (by push_cast; exact h2)
    obtain ⟨a, b, c, d, e1, e2, e3⟩ := two_fields (⌊t⌋₊ / 86400) (⌊t⌋₊ % 86400 / 3600) (by omega) (by omega) 'd' 'h'
    have k1 : 86400 * (⌊t⌋₊ / 86400) + 3600 * (⌊t⌋₊ % 86400 / 3600) ≤ ⌊t⌋₊ := by omega
    have k2 : ⌊t⌋₊ + 1 ≤ 86400 * (⌊t⌋₊ / 86400) + 3600 * (⌊t⌋₊ % 86400 / 3600 + 1) := by omega
    have k1' : (86400 * (⌊t⌋₊ / 86400 : ℕ) + 3600 * (⌊t⌋₊ % 86400 / 3600 : ℕ) : ℝ) ≤ ⌊t⌋₊ := by exact_mod_cast k1
    have k2' : (⌊t⌋₊ + 1 : ℝ) ≤ 86400 * (⌊t⌋₊ / 86400 : ℕ) + 3600 * ((⌊t⌋₊ % 86400 / 3600 : ℕ) + 1) := by exact_mod_cast k2
    refine ⟨a, b, c, d, ?_, by omega, ?_, ?_⟩
    · unfold prettyTime
      rw [if_neg hn, if_neg (by linarith), if_neg (by linarith), if_neg (by linarith), if_neg (by linarith), if_pos h2, ← e1, ← hd, ← hd2]
    · rw [e2, e3]; linarith
    · rw [e2, e3]; linarith

theorem roundEven_near (x : ℝ) (hx : 0 ≤ x) : |(roundEven x : ℝ) - x| ≤ 1/2 := by
  have fl := Nat.floor_le hx
  have fu := Nat.lt_floor_add_one x
  unfold roundEven
  simp only
  split_ifs with h1 h2 h3 <;> (try push_cast) <;> rw [abs_le] <;> constructor <;> linarith

/-- C97: from 99 days to a year: six characters, months to one decimal, to the nearest tenth. -/
theorem C97_months (t : ℝ) (h1 : 8553600 ≤ t) (h2 : t < 31536000) : ∃ a b c, prettyTime t = [a, b, '.', c, 'm', 'o'] ∧
    |(twoDigits a b : ℝ) + digit c / 10 - t / 2635200| ≤ 1/20 := by
  have hpos : 0 ≤ 10 * (t / (3600 * 24 * 30.5)) := by
    have : 0 ≤ t := by linarith
    positivity
  have hr := roundEven_near _ hpos
  have hx : 10 * (t / (3600 * 24 * 30.5)) = 10 * (t / 2635200) := by norm_num
  rw [hx] at hr
  have hlt : (roundEven (10 * (t / 2635200)) : ℝ) < 1000 := by
    rw [abs_le] at hr
    have : t / 2635200 < 12 := by rw [div_lt_iff₀ (by norm_num)]; linarith
    linarith
  have hlt : roundEven (10 * (t / 2635200)) < 1000 := by exact_mod_cast hlt
  have key : ∀ k < 1000, ∃ a b c, padLeft ' ' 4 (Nat.toDigits 10 (k / 10) ++ ['.'] ++ Nat.toDigits 10 (k % 10)) = [a, b, '.', c] ∧
      10 * twoDigits a b + digit c = k := by
    intro k hk
    have e : padLeft ' ' 4 (Nat.toDigits 10 (k / 10) ++ ['.'] ++ Nat.toDigits 10 (k % 10)) = fmt2d (k / 10) ++ ['.'] ++ Nat.toDigits 10 (k % 10) := by
      have l1 : ∀ q < 10, (Nat.toDigits 10 q).length = 1 := by decide
      have := l1 (k % 10) (Nat.mod_lt _ (by norm_num))
      unfold fmt2d padLeft
      simp only [List.length_append, this, List.length_singleton]
      rw [show 4 - ((Nat.toDigits 10 (k / 10)).length + 1 + 1) = 2 - (Nat.toDigits 10 (k / 10)).length by omega]
      simp
    obtain ⟨a, b, h1, h2⟩ := fmt2d_two (k / 10) (by omega)
    have l2 : ∀ q < 10, ∃ c, Nat.toDigits 10 q = [c] ∧ digit c = q := by
      intro q hq
      interval_cases q <;> exact ⟨_, rfl, by decide⟩
    obtain ⟨c, h3, h4⟩ := l2 (k % 10) (Nat.mod_lt _ (by norm_num))
    refine ⟨a, b, c, by rw [e, h1, h3]; rfl, ?_⟩
    rw [h2, h4]; omega
  obtain ⟨a, b, c, e1, e2⟩ := key _ hlt
  refine ⟨a, b, c, ?_, ?_⟩
  · unfold prettyTime
    rw [if_neg (by linarith), if_neg (by linarith), if_neg (by linarith), if_neg (by linarith), if_neg (by linarith), if_neg (by linarith), if_pos h2]
    unfold fmt1f
    simp only
    rw [hx, e1]
    rfl
  · have e3 : (10 * twoDigits a b + digit c : ℝ) = roundEven (10 * (t / 2635200)) := by exact_mod_cast e2
    rw [← e3, abs_le] at hr
    rw [abs_le]
    constructor <;> linarith

/-- C97: the result has six characters for every time below a year, also negative. -/
theorem C97_length_partial (t : ℝ) (ht : t < 31536000) : (prettyTime t).length = 6 := by
  by_cases h0 : t < 0
  · unfold prettyTime; rw [if_pos h0]; rfl
  · push Not at h0
    obtain ⟨h1, h2, h3, h4⟩ := C97_fields t h0
    by_cases c1 : t < 60
    · obtain ⟨a, b, c, d, e, -⟩ := h1 c1; rw [e]; rfl
    push Not at c1
    by_cases c2 : t < 3600
    · obtain ⟨a, b, c, d, e, -⟩ := h2 c1 c2; rw [e]; rfl
    push Not at c2
    by_cases c3 : t < 86400
    · obtain ⟨a, b, c, d, e, -⟩ := h3 c2 c3; rw [e]; rfl
    push Not at c3
    by_cases c4 : t < 8553600
    · obtain ⟨a, b, c, d, e, -⟩ := h4 c3 c4; rw [e]; rfl
    push Not at c4
    obtain ⟨a, b, c, e, -⟩ := C97_months t c4 ht
    rw [e]; rfl

/-- C97: "a 6-characters string" is not true from one year on: two years of 365.25 days are written `2.0y`. -/
theorem C97_length_refuted : prettyTime 63115200 = ['2', '.', '0', 'y'] := by
  unfold prettyTime
  rw [if_neg (by norm_num), if_neg (by norm_num), if_neg (by norm_num), if_neg (by norm_num), if_neg (by norm_num), if_neg (by norm_num), if_neg (by norm_num)]
  unfold fmt1f
  simp only
  have : roundEven (10 * (63115200 / (3600 * 24 * 365.25))) = 20 := by
    have e : (10 * (63115200 / (3600 * 24 * 365.25)) : ℝ) = ((20 : ℕ) : ℝ) := by norm_num
    rw [e]
    unfold roundEven
    simp only [Nat.floor_natCast, sub_self]
    norm_num
  rw [this]
  rfl

/-- the example of the documentation -/
example : prettyTime 612 = ['1', '0', 'm', '1', '2', 's'] := by
  unfold prettyTime
  rw [if_neg (by norm_num), if_neg (by norm_num), if_neg (by norm_num), if_pos (by norm_num)]
  have e1 : ⌊(612:ℝ) / 60⌋₊ = 10 := by rw [Nat.floor_div_ofNat]; norm_num
  have e2 : ⌊(612:ℝ)⌋₊ = 612 := by norm_num
  simp only [e1, e2]
  rfl
end Wiz
