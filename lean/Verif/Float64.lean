import Verif.RepairProps
import Verif.Single
import Mathlib.Tactic.Linarith
import Mathlib.Tactic.Positivity
import Mathlib.Tactic.FieldSimp
import Mathlib.Algebra.Order.Field.Power

/-!
# Double precision

`float64` is the arithmetic of IEEE 754 binary64 (53 bits, gradual underflow, overflow to infinity, rounding to nearest, ties to even;
without signed zeros). It is used to check which of the hypotheses about arithmetic hold of floating point.
-/

namespace NiaPy.Float64

/-- The exponent of a positive rational: `2 ^ e ≤ q < 2 ^ (e + 1)`. -/
def expo (q : ℚ) : ℤ :=
  let e : ℤ := (Nat.log2 q.num.natAbs : ℤ) - Nat.log2 q.den
  if (2 : ℚ) ^ e ≤ q then e else e - 1

theorem expo_le {q : ℚ} (hq : 0 < q) : (2 : ℚ) ^ expo q ≤ q ∧ q < (2 : ℚ) ^ (expo q + 1) := by
  have hn : q.num.natAbs ≠ 0 := by simpa using hq.ne'
  have hd : q.den ≠ 0 := q.den_nz
  have h1 : ((2 : ℕ) ^ Nat.log2 q.num.natAbs : ℚ) ≤ q.num.natAbs := by exact_mod_cast Nat.log2_self_le hn
  have h2 : (q.num.natAbs : ℚ) < (2 : ℕ) ^ (Nat.log2 q.num.natAbs + 1) := by exact_mod_cast Nat.lt_log2_self
  have h3 : ((2 : ℕ) ^ Nat.log2 q.den : ℚ) ≤ q.den := by exact_mod_cast Nat.log2_self_le hd
  have h4 : (q.den : ℚ) < (2 : ℕ) ^ (Nat.log2 q.den + 1) := by exact_mod_cast Nat.lt_log2_self
  have hqe : q = (q.num.natAbs : ℚ) / q.den := by
    have : ((q.num.natAbs : ℤ) : ℚ) = q.num := by
      rw [Int.natAbs_of_nonneg (Rat.num_pos.2 hq).le]
    rw [Int.cast_natCast] at this
    rw [this, Rat.num_div_den]
  have hdp : (0 : ℚ) < q.den := by exact_mod_cast q.den_pos
  generalize hN : q.num.natAbs = n at h1 h2 hqe
  generalize hD : q.den = d at h3 h4 hdp hqe
  have hup : q < (2 : ℚ) ^ ((Nat.log2 n : ℤ) - Nat.log2 d + 1) := by
    rw [hqe, div_lt_iff₀ hdp, show ((Nat.log2 n : ℤ) - Nat.log2 d + 1) = ((Nat.log2 n + 1 : ℕ) : ℤ) - (Nat.log2 d : ℕ) by push_cast; ring,
      zpow_sub₀ (by norm_num), zpow_natCast, zpow_natCast]
    have hp : (0 : ℚ) < 2 ^ Nat.log2 d := by positivity
    calc (n : ℚ) < 2 ^ (Nat.log2 n + 1) := by exact_mod_cast h2
      _ = 2 ^ (Nat.log2 n + 1) / 2 ^ Nat.log2 d * 2 ^ Nat.log2 d := by field_simp
      _ ≤ 2 ^ (Nat.log2 n + 1) / 2 ^ Nat.log2 d * d := by
        refine mul_le_mul_of_nonneg_left ?_ (by positivity)
        exact_mod_cast h3
  have hlow : (2 : ℚ) ^ ((Nat.log2 n : ℤ) - Nat.log2 d - 1) ≤ q := by
    rw [hqe, le_div_iff₀ hdp, show ((Nat.log2 n : ℤ) - Nat.log2 d - 1) = ((Nat.log2 n : ℕ) : ℤ) - ((Nat.log2 d + 1 : ℕ) : ℤ) by push_cast; ring,
      zpow_sub₀ (by norm_num), zpow_natCast, zpow_natCast]
    calc (2 : ℚ) ^ Nat.log2 n / 2 ^ (Nat.log2 d + 1) * d ≤ 2 ^ Nat.log2 n / 2 ^ (Nat.log2 d + 1) * 2 ^ (Nat.log2 d + 1) := by
          refine mul_le_mul_of_nonneg_left ?_ (by positivity)
          exact_mod_cast h4.le
      _ = 2 ^ Nat.log2 n := by field_simp
      _ ≤ n := by exact_mod_cast h1
  unfold expo
  rw [hN, hD]
  simp only
  split
  · exact ⟨by assumption, hup⟩
  · rename_i h
    refine ⟨hlow, ?_⟩
    rw [sub_add_cancel]
    exact lt_of_not_ge h

/-- The position of the last bit of numbers as large as `q`. -/
def last (q : ℚ) : ℤ := if q = 0 then -1074 else max (expo |q| - 52) (-1074)

/-- The nearest integer, the even one of two. -/
def near (t : ℚ) : ℤ :=
  let n := ⌊t⌋
  let r := t - n
  if r < 1 / 2 then n else if 1 / 2 < r then n + 1 else if n % 2 = 0 then n else n + 1

theorem near_le (t : ℚ) : |(near t : ℚ) - t| ≤ 1 / 2 := by
  have h1 := Int.floor_le t
  have h2 := Int.lt_floor_add_one t
  unfold near
  simp only
  split
  · rw [abs_le]; constructor <;> linarith
  · split
    · push_cast; rw [abs_le]; constructor <;> linarith
    · split
      · rw [abs_le]; constructor <;> linarith
      · push_cast; rw [abs_le]; constructor <;> linarith

/-- Among the integers `near t` is as near to `t` as possible. -/
theorem near_nearest (t : ℚ) (m : ℤ) : |(near t : ℚ) - t| ≤ |(m : ℚ) - t| := by
  by_cases h : m = near t
  · rw [h]
  · have h1 := near_le t
    have h2 : (1 : ℚ) ≤ |(m : ℚ) - near t| := by
      have : (1 : ℤ) ≤ |m - near t| := Int.one_le_abs (sub_ne_zero.2 h)
      exact_mod_cast this
    have h3 : |(m : ℚ) - near t| ≤ |(m : ℚ) - t| + |(near t : ℚ) - t| := by
      have := abs_sub_le (m : ℚ) t (near t)
      rwa [abs_sub_comm t] at this
    linarith

/-- Rounding to 53 bits, without overflow. -/
def rn (q : ℚ) : ℚ := near (q / 2 ^ last q) * 2 ^ last q

/-- The double-precision numbers, disregarding overflow. -/
def IsF (q : ℚ) : Prop := ∃ m e : ℤ, |m| < 2 ^ 53 ∧ -1074 ≤ e ∧ q = m * 2 ^ e

theorem last_ge (q : ℚ) : -1074 ≤ last q := by
  unfold last
  split
  · exact le_rfl
  · exact le_max_right _ _

theorem lt_last (q : ℚ) : |q| < 2 ^ (last q + 53) := by
  unfold last
  split
  · rename_i h; rw [h]; simp
  · rename_i h
    refine (expo_le (abs_pos.2 h)).2.trans_le (zpow_le_zpow_right₀ (by norm_num) ?_)
    have := le_max_left (expo |q| - 52) (-1074)
    omega

theorem isF_pow {e : ℤ} (h : -1074 ≤ e) : IsF (2 ^ e) := ⟨1, e, by norm_num, h, by simp⟩

theorem isF_zero : IsF 0 := ⟨0, 0, by norm_num, by norm_num, by simp⟩

theorem IsF.neg {q : ℚ} (h : IsF q) : IsF (-q) := by
  obtain ⟨m, e, h1, h2, rfl⟩ := h
  exact ⟨-m, e, by rwa [abs_neg], h2, by push_cast; ring⟩

theorem rn_isF (q : ℚ) : IsF (rn q) := by
  have hk := last_ge q
  have hu : (0 : ℚ) < 2 ^ last q := by positivity
  have h1 : |q / 2 ^ last q| < 2 ^ 53 := by
    rw [abs_div, abs_of_pos hu, div_lt_iff₀ hu]
    have := lt_last q
    rwa [zpow_add₀ (by norm_num), mul_comm] at this
  have h2 := near_le (q / 2 ^ last q)
  have h3 : |near (q / 2 ^ last q)| ≤ 2 ^ 53 := by
    have h : |(near (q / 2 ^ last q) : ℚ)| < 2 ^ 53 + 1 := by
      have := abs_sub_abs_le_abs_sub (near (q / 2 ^ last q) : ℚ) (q / 2 ^ last q)
      linarith
    have : |near (q / 2 ^ last q)| < 2 ^ 53 + 1 := by exact_mod_cast h
    omega
  unfold rn
  generalize near (q / 2 ^ last q) = n at h3
  rcases lt_or_eq_of_le h3 with h | h
  · exact ⟨n, last q, h, hk, rfl⟩
  · have hp := isF_pow (e := last q + 53) (by omega)
    have he : (2 : ℚ) ^ (last q + 53) = 2 ^ 53 * 2 ^ last q := by
      rw [zpow_add₀ (by norm_num), mul_comm]
      rfl
    rw [he] at hp
    rcases abs_choice n with hc | hc
    · rw [hc] at h; rw [h]; push_cast; exact hp
    · rw [hc] at h
      have : n = -2 ^ 53 := by omega
      rw [this]; push_cast
      have := hp.neg
      rwa [← neg_mul] at this

/-- No double is nearer to `q`. -/
theorem rn_nearest (q : ℚ) {f : ℚ} (hf : IsF f) : |rn q - q| ≤ |f - q| := by
  have hu : (0 : ℚ) < 2 ^ last q := by positivity
  have hmul : ∀ m : ℤ, |rn q - q| ≤ |m * 2 ^ last q - q| := by
    intro m
    have h := mul_le_mul_of_nonneg_right (near_nearest (q / 2 ^ last q) m) hu.le
    have key : ∀ n : ℤ, |(n : ℚ) - q / 2 ^ last q| * 2 ^ last q = |n * 2 ^ last q - q| := by
      intro n
      have := abs_mul ((n : ℚ) - q / 2 ^ last q) (2 ^ last q)
      rw [sub_mul, div_mul_cancel₀ _ hu.ne', abs_of_pos hu] at this
      exact this.symm
    rw [key, key] at h
    exact h
  obtain ⟨m, e, h1, h2, rfl⟩ := hf
  rcases le_or_gt (last q) e with h | h
  · have : (m : ℚ) * 2 ^ e = ((m * 2 ^ (e - last q).toNat : ℤ) : ℚ) * 2 ^ last q := by
      push_cast
      rw [mul_assoc, ← zpow_natCast, ← zpow_add₀ (by norm_num)]
      congr 2
      omega
    rw [this]
    exact hmul _
  · -- `f` is smaller than the power of two below `q`
    have hq : q ≠ 0 := by
      rintro rfl
      simp [last] at h
      omega
    have hl : last q = expo |q| - 52 := by
      unfold last at h ⊢
      rw [if_neg hq] at h ⊢
      rcases le_total (expo |q| - 52) (-1074) with h' | h'
      · rw [max_eq_right h'] at h; omega
      · exact max_eq_left h'
    have hp := (expo_le (abs_pos.2 hq)).1
    have hm : |(m : ℚ) * 2 ^ e| ≤ 2 ^ expo |q| := by
      have h3 : |(m : ℚ)| ≤ 2 ^ (53 : ℤ) := by
        have : |m| ≤ 2 ^ 53 := h1.le
        exact_mod_cast this
      rw [abs_mul, abs_of_pos (by positivity : (0 : ℚ) < 2 ^ e)]
      calc |(m : ℚ)| * 2 ^ e ≤ 2 ^ (53 : ℤ) * 2 ^ e := mul_le_mul_of_nonneg_right h3 (by positivity)
        _ = 2 ^ (53 + e) := (zpow_add₀ (by norm_num) _ _).symm
        _ ≤ 2 ^ expo |q| := zpow_le_zpow_right₀ (by norm_num) (by omega)
    have hP : (2 : ℚ) ^ expo |q| = ((2 ^ 52 : ℤ) : ℚ) * 2 ^ last q := by
      rw [hl, zpow_sub₀ (by norm_num)]
      norm_num
      field_simp
    rw [abs_le] at hm
    rcases lt_or_gt_of_ne hq with hneg | hpos
    · rw [abs_of_neg hneg] at hp hm hP
      have h4 := hmul (-2 ^ 52)
      rw [show (((-2 ^ 52 : ℤ)) : ℚ) * 2 ^ last q = -(2 ^ expo (-q)) by rw [hP]; push_cast; ring] at h4
      refine h4.trans ?_
      rw [abs_of_nonneg (by linarith), abs_of_nonneg (by linarith [hm.1])]
      linarith [hm.1]
    · rw [abs_of_pos hpos] at hp hm hP
      have h4 := hmul (2 ^ 52)
      rw [← hP] at h4
      refine h4.trans ?_
      rw [abs_of_nonpos (by linarith), abs_of_nonpos (by linarith [hm.2])]
      linarith [hm.2]

theorem rn_of_isF {q : ℚ} (h : IsF q) : rn q = q := by
  have := rn_nearest q h
  rw [sub_self, abs_zero] at this
  have := abs_nonpos_iff.1 this
  linarith

theorem rn_mono {x y : ℚ} (h : x ≤ y) : rn x ≤ rn y := by
  rcases eq_or_lt_of_le h with rfl | h
  · exact le_rfl
  · by_contra hc
    push Not at hc
    have h1 := rn_nearest x (rn_isF y)
    have h2 := rn_nearest y (rn_isF x)
    rw [← sq_le_sq] at h1 h2
    nlinarith

theorem rn_neg (q : ℚ) : |rn (-q) - -q| = |rn q - q| := by
  have h1 := rn_nearest (-q) (rn_isF q).neg
  have h2 := rn_nearest q (rn_isF (-q)).neg
  rw [show -rn q - -q = -(rn q - q) by ring, abs_neg] at h1
  rw [show -rn (-q) - q = -(rn (-q) - -q) by ring, abs_neg] at h2
  exact le_antisymm h1 h2

/-- The value before a double. -/
theorem pred_lt {d : ℚ} (hd : IsF d) (h0 : 0 < d) (hn : -1074 < last d) : rn ((1 - 1 / 2 ^ 53) * d) < d := by
  have hl : last d = expo d - 52 := by
    unfold last at hn ⊢
    rw [if_neg h0.ne'] at hn ⊢
    rw [abs_of_pos h0] at hn ⊢
    rcases le_total (expo d - 52) (-1074) with h' | h'
    · rw [max_eq_right h'] at hn; omega
    · exact max_eq_left h'
  obtain ⟨hlo, hhi⟩ := expo_le h0
  have hle : rn ((1 - 1 / 2 ^ 53) * d) ≤ d := by
    have := rn_mono (show (1 - 1 / 2 ^ 53) * d ≤ d by nlinarith)
    rwa [rn_of_isF hd] at this
  refine lt_of_le_of_ne hle fun heq => ?_
  rcases eq_or_lt_of_le hlo with h | h
  · -- a power of two
    have hf : IsF ((1 - 1 / 2 ^ 53) * d) := by
      refine ⟨2 ^ 53 - 1, expo d - 53, by norm_num, by omega, ?_⟩
      rw [← h, zpow_sub₀ (by norm_num)]
      have h1 : expo ((2 : ℚ) ^ expo d) = expo d := by rw [h]
      rw [h1]
      norm_num
      ring
    rw [rn_of_isF hf] at heq
    nlinarith
  · -- the number one unit below is nearer
    have hpred : IsF (d - 2 ^ last d) := by
      have hd' : rn d = d := rn_of_isF hd
      unfold rn at hd'
      have hu : (0 : ℚ) < 2 ^ last d := by positivity
      refine ⟨near (d / 2 ^ last d) - 1, last d, ?_, by omega, ?_⟩
      · have h1 : (near (d / 2 ^ last d) : ℚ) * 2 ^ last d = d := hd'
        have h2 : d < 2 ^ 53 * 2 ^ last d := by
          have := lt_last d
          rw [abs_of_pos h0, zpow_add₀ (by norm_num), mul_comm] at this
          exact this
        generalize (2 : ℚ) ^ last d = u at h1 h2 hu
        generalize near (d / u) = n at h1
        rw [← h1] at h2 h0
        have h3 : (n : ℚ) < 2 ^ 53 := lt_of_mul_lt_mul_right h2 hu.le
        have h4 : (0 : ℚ) < n := (mul_pos_iff_of_pos_right hu).1 h0
        have h3 : n < 2 ^ 53 := by exact_mod_cast h3
        have h4 : 0 < n := by exact_mod_cast h4
        rw [abs_lt]
        constructor <;> omega
      · push_cast
        rw [sub_mul, hd', one_mul]
    have h1 := rn_nearest ((1 - 1 / 2 ^ 53) * d) hpred
    rw [heq] at h1
    have hu : (2 : ℚ) ^ last d = 2 ^ expo d / 2 ^ 52 := by
      rw [hl, zpow_sub₀ (by norm_num)]
      norm_num
    have hhi' : d < 2 * 2 ^ expo d := by rwa [zpow_add₀ (by norm_num), zpow_one, mul_comm] at hhi
    rw [hu] at h1
    generalize (2 : ℚ) ^ expo d = P at h h1 hhi'
    have e1 : d - (1 - 1 / 2 ^ 53) * d = d / 2 ^ 53 := by ring
    have e2 : d - P / 2 ^ 52 - (1 - 1 / 2 ^ 53) * d = d / 2 ^ 53 - P / 2 ^ 52 := by ring
    rw [e1, e2, abs_of_pos (by positivity), abs_of_neg (by norm_num; linarith)] at h1
    norm_num at h1
    linarith

/-- Differences of doubles are multiples of the smallest one; small differences are exact. -/
theorem sub_isF {a b : ℚ} (ha : IsF a) (hb : IsF b) (h : |a - b| < 2 ^ (-1021 : ℤ)) : IsF (a - b) := by
  have key : ∀ {q : ℚ}, IsF q → ∃ m : ℤ, q = m * 2 ^ (-1074 : ℤ) := by
    rintro q ⟨m, e, -, h2, rfl⟩
    refine ⟨m * 2 ^ (e + 1074).toNat, ?_⟩
    push_cast
    rw [mul_assoc, ← zpow_natCast, ← zpow_add₀ (by norm_num)]
    congr 2
    omega
  obtain ⟨m, rfl⟩ := key ha
  obtain ⟨n, rfl⟩ := key hb
  have hu : (0 : ℚ) < 2 ^ (-1074 : ℤ) := by positivity
  have e : (m : ℚ) * 2 ^ (-1074 : ℤ) - n * 2 ^ (-1074 : ℤ) = ((m - n : ℤ) : ℚ) * 2 ^ (-1074 : ℤ) := by push_cast; ring
  rw [e] at h ⊢
  refine ⟨m - n, -1074, ?_, le_rfl, rfl⟩
  rw [abs_mul, abs_of_pos hu, show (-1021 : ℤ) = 53 + -1074 by norm_num, zpow_add₀ (by norm_num)] at h
  have := lt_of_mul_lt_mul_right h hu.le
  exact_mod_cast this

theorem rn_zero : rn 0 = 0 := rn_of_isF isF_zero

theorem rn_nonneg {q : ℚ} (h : 0 ≤ q) : 0 ≤ rn q := by
  have := rn_mono h
  rwa [rn_zero] at this

theorem rn_nonpos {q : ℚ} (h : q ≤ 0) : rn q ≤ 0 := by
  have := rn_mono h
  rwa [rn_zero] at this

/-- If the rounded width exceeds the width, every double below it is at most the width. -/
theorem le_width {q f : ℚ} (hf : IsF f) (h : f < rn q) : f ≤ q := by
  by_contra hc
  push Not at hc
  have := rn_nearest q hf
  rw [abs_of_pos (by linarith), abs_of_pos (by linarith)] at this
  linarith

/-- Scaling a difference by a factor below 1 and adding it to the lower end stays in the interval, with each step rounded. -/
theorem affine {a b u : ℚ} (ha : IsF a) (hb : IsF b) (h : a ≤ b) (h0 : 0 ≤ u) (h1 : u ≤ 1 - 1 / 2 ^ 53) :
    0 ≤ rn (u * rn (b - a)) ∧ rn (u * rn (b - a)) ≤ b - a := by
  have hd0 : 0 ≤ rn (b - a) := rn_nonneg (by linarith)
  refine ⟨rn_nonneg (mul_nonneg h0 hd0), ?_⟩
  have hud : u * rn (b - a) ≤ rn (b - a) := by
    have : u ≤ 1 := h1.trans (by norm_num)
    nlinarith
  have hle : rn (u * rn (b - a)) ≤ rn (b - a) := by
    have := rn_mono hud
    rwa [rn_of_isF (rn_isF _)] at this
  rcases le_or_gt (rn (b - a)) (b - a) with hd | hd
  · exact hle.trans hd
  · have hpos : 0 < rn (b - a) := lt_of_le_of_lt (by linarith) hd
    have hlast : -1074 < last (rn (b - a)) := by
      by_contra hc
      have hl : last (rn (b - a)) = -1074 := le_antisymm (not_lt.1 hc) (last_ge _)
      have h2 := lt_last (rn (b - a))
      rw [hl, abs_of_pos hpos] at h2
      have hF := sub_isF hb ha (by rw [abs_of_nonneg (by linarith)]; exact hd.trans (by norm_num at h2 ⊢; exact h2))
      rw [rn_of_isF hF] at hd
      exact lt_irrefl _ hd
    refine le_width (rn_isF _) (lt_of_le_of_lt ?_ (pred_lt (rn_isF _) hpos hlast))
    exact rn_mono (mul_le_mul_of_nonneg_right h1 hd0)

/-- Rounding to a double: too large numbers become infinite. -/
def rnd (q : ℚ) : Fl := if |rn q| < 2 ^ 1024 then .fin (rn q) else Fl.infOf (rn q)

/-- Overflow of a number below the largest double does not happen. -/
theorem rnd_of_le {q c : ℚ} (hc : IsF c) (hlt : c < 2 ^ 1024) (h : |q| ≤ c) : rnd q = .fin (rn q) := by
  rw [abs_le] at h
  have h1 := rn_mono h.2
  have h2 := rn_mono h.1
  rw [rn_of_isF hc] at h1
  rw [rn_of_isF hc.neg] at h2
  have : |rn q| < 2 ^ 1024 := lt_of_le_of_lt (abs_le.2 ⟨h2, h1⟩) hlt
  rw [rnd, if_pos this]

theorem rnd_of_isF {q : ℚ} (hq : IsF q) (h : |q| < 2 ^ 1024) : rnd q = .fin q := by
  rw [rnd, rn_of_isF hq, if_pos h]

theorem rnd_mono {x y : ℚ} (h : x ≤ y) : rnd x ≤ rnd y := by
  have hm := rn_mono h
  have hP : (0 : ℚ) < 2 ^ 1024 := by positivity
  unfold rnd Fl.infOf
  split_ifs with h1 h2 h3 h4 h5 h6 h7 h8 h9 h10 <;> simp_all <;> first | linarith | (simp only [abs_lt, not_lt, le_abs] at *; grind)

/-- Subtraction. Arguments that are not doubles do not occur in the code; for them the difference is left exact (so that `SubNeg` can be
stated for all numbers). -/
def sub (a b : Fl) : Fl :=
  match a, b with
  | .fin x, .fin y => if rn x = x ∧ rn y = y then rnd (x - y) else .fin (x - y)
  | a, b => Fl.addX a (-b)

/-- Arithmetic in double precision; the elementary functions are a parameter. (`np.mod` adds the divisor to the exact `fmod`, hence
rounds once.) -/
@[reducible] def float64 (fn : Fn → Fl → Fl := fun _ x => x) : Arith := { Repair.roundArith rnd fn with sub := sub }

/-- On doubles, subtraction is the rounded difference. -/
theorem sub_double {x y : ℚ} (hx : IsF x) (hy : IsF y) : sub (.fin x) (.fin y) = rnd (x - y) := by
  simp only [sub, rn_of_isF hx, rn_of_isF hy, and_self, if_true]

theorem pow_double (n : ℕ) : (2 : ℚ) ^ (n + 1) = 2 ^ n + 2 ^ n := by rw [pow_succ]; ring

/-- A bound of a search space: a finite double, and so small that widths do not overflow. -/
def Bound (q : ℚ) : Prop := IsF q ∧ |q| ≤ 2 ^ 1022

/-- A search space whose bounds are doubles. -/
def Bounds {D : ℕ} (B : Box D) : Prop := ∀ i, (∃ q, B.lo i = .fin q ∧ Bound q) ∧ ∃ q, B.hi i = .fin q ∧ Bound q

theorem big_isF : IsF (2 ^ 1023) := by
  have := isF_pow (e := 1023) (by norm_num)
  exact_mod_cast this

theorem rnd_of_le_pow {q : ℚ} (h : |q| ≤ 2 ^ 1023) : rnd q = .fin (rn q) :=
  rnd_of_le big_isF (pow_lt_pow_right₀ (by norm_num) (by norm_num)) h

theorem Bound.width {a b : ℚ} (ha : Bound a) (hb : Bound b) : |b - a| ≤ 2 ^ 1023 := by
  have h1 := abs_le.1 ha.2
  have h2 := abs_le.1 hb.2
  have e := pow_double 1022
  rw [abs_le, e]
  constructor <;> linarith [h1.1, h1.2, h2.1, h2.2]

theorem belowOne_eq : (9007199254740991 / 9007199254740992 : ℚ) = 1 - 1 / 2 ^ 53 := by norm_num

/-- Sampling a coordinate between two doubles stays between them. -/
theorem affine_mem (fn : Fn → Fl → Fl) {a b : ℚ} (ha : Bound a) (hb : Bound b) (h : a ≤ b) {r : Fl} (h0 : Fl.fin 0 ≤ r) (h1 : r ≤ Fl.belowOne) :
    letI := float64 fn
    Fl.fin a ≤ Fl.fin a + r * (Fl.fin b - Fl.fin a) ∧ Fl.fin a + r * (Fl.fin b - Fl.fin a) ≤ Fl.fin b := by
  letI := float64 fn
  cases r with
  | nan => simp at h0
  | pinf => simp [Fl.belowOne] at h1
  | ninf => simp at h0
  | fin u =>
    simp only [Fl.belowOne, Fl.fin_le_fin, belowOne_eq] at h0 h1
    have hP : (0 : ℚ) < 2 ^ 1022 := by positivity
    have hw := ha.width hb
    have e1 : (Fl.fin b - Fl.fin a : Fl) = .fin (rn (b - a)) := by
      change sub (.fin b) (.fin a) = _
      rw [sub_double hb.1 ha.1, rnd_of_le_pow hw]
    obtain ⟨h2, h3⟩ := affine ha.1 hb.1 h h0 h1
    have hd0 : 0 ≤ rn (b - a) := rn_nonneg (by linarith)
    have e2 : (Fl.fin u * Fl.fin (rn (b - a)) : Fl) = .fin (rn (u * rn (b - a))) := by
      change rnd (u * rn (b - a)) = _
      refine rnd_of_le_pow ?_
      rw [abs_of_nonneg (mul_nonneg h0 hd0)]
      have h5 : rn (b - a) ≤ 2 ^ 1023 := by
        have := rn_mono ((le_abs_self _).trans hw)
        rwa [rn_of_isF big_isF] at this
      have h6 : u ≤ 1 := h1.trans (by norm_num)
      exact (mul_le_of_le_one_left hd0 h6).trans h5
    have e3 : (Fl.fin a + Fl.fin (rn (u * rn (b - a))) : Fl) = .fin (rn (a + rn (u * rn (b - a)))) := by
      change rnd (a + rn (u * rn (b - a))) = _
      refine rnd_of_le_pow ?_
      have h4 := abs_le.1 ha.2
      have h5 := abs_le.1 hb.2
      rw [abs_le, pow_double 1022]
      generalize (2 : ℚ) ^ 1022 = P at hP h4 h5
      constructor <;> linarith [h4.1, h5.2]
    rw [e1, e2, e3, Fl.fin_le_fin, Fl.fin_le_fin]
    constructor
    · have := rn_mono (show a ≤ a + rn (u * rn (b - a)) by linarith)
      rwa [rn_of_isF ha.1] at this
    · have := rn_mono (show a + rn (u * rn (b - a)) ≤ b by linarith)
      rwa [rn_of_isF hb.1] at this

/-- `AffineLaw` holds in double precision. -/
theorem affineLaw (fn : Fn → Fl → Fl) {D : ℕ} {B : Box D} (hB : Bounds B) : @AffineLaw (float64 fn) D B := by
  letI := float64 fn
  intro i r h0 h1
  obtain ⟨⟨a, ha, ha'⟩, b, hb, hb'⟩ := hB i
  have hle := B.le i
  rw [ha, hb] at hle ⊢
  exact affine_mem fn ha' hb' ((Fl.fin_le_fin _ _).1 hle) h0 h1

/-- The value assumed of `uniform(low, high)`, `low + (high - low) * random()`, is between the bounds: what the model assumes of
`Generator.uniform` (`Rng.unif_mem`) is true of the formula NumPy uses. -/
theorem uniform_mem (fn : Fn → Fl → Fl) {a b : ℚ} (ha : Bound a) (hb : Bound b) (h : a ≤ b) (r : Rng) (k : ℕ) :
    letI := float64 fn
    Fl.fin a ≤ Fl.fin a + r.rand k * (Fl.fin b - Fl.fin a) ∧ Fl.fin a + r.rand k * (Fl.fin b - Fl.fin a) ≤ Fl.fin b :=
  affine_mem fn ha hb h (r.rand_le k).1 (r.rand_le k).2

theorem IsF.le_of_pos {q : ℚ} (h : IsF q) (h0 : 0 < q) : 2 ^ (-1074 : ℤ) ≤ q := by
  obtain ⟨m, e, -, h2, rfl⟩ := h
  have hu : (0 : ℚ) < 2 ^ e := by positivity
  have hm : (0 : ℚ) < m := (mul_pos_iff_of_pos_right hu).1 h0
  have hm1 : (1 : ℚ) ≤ m := by
    have : 0 < m := by exact_mod_cast hm
    exact_mod_cast this
  calc (2 : ℚ) ^ (-1074 : ℤ) ≤ 2 ^ e := zpow_le_zpow_right₀ (by norm_num) h2
    _ ≤ m * 2 ^ e := by nlinarith

/-- Gradual underflow: the difference of different doubles is not rounded to 0. -/
theorem rn_sub_neg {x y : ℚ} (hx : IsF x) (hy : IsF y) (h : x < y) : rn (x - y) < 0 := by
  have hp : (0 : ℚ) < 2 ^ (-1074 : ℤ) := by positivity
  have h1 : x - y ≤ -2 ^ (-1074 : ℤ) := by
    rcases lt_or_ge (|x - y|) (2 ^ (-1021 : ℤ)) with hs | hs
    · have := (sub_isF hx hy hs).neg.le_of_pos (by linarith)
      linarith
    · rw [abs_of_neg (by linarith)] at hs
      have : (2 : ℚ) ^ (-1074 : ℤ) ≤ 2 ^ (-1021 : ℤ) := zpow_le_zpow_right₀ (by norm_num) (by norm_num)
      linarith
  have := rn_mono h1
  rw [rn_of_isF (isF_pow le_rfl).neg] at this
  linarith

theorem rnd_neg {q : ℚ} (h : rn q < 0) : rnd q < .fin 0 := by
  unfold rnd
  split
  · simpa using h
  · simp [Fl.infOf, h, not_lt.2 h.le]

/-- `SubNeg` holds in double precision. -/
theorem subNeg (fn : Fn → Fl → Fl) : @SubNeg (float64 fn) := by
  letI := float64 fn
  intro a b h
  change sub a b < _
  cases a <;> cases b <;> simp at h
  · exact (by decide +kernel : Fl.ninf < Fl.fin 0)
  · exact (by decide +kernel : Fl.ninf < Fl.fin 0)
  · rename_i p q
    simp only [sub]
    split
    · rename_i hd
      refine rnd_neg (rn_sub_neg ?_ ?_ h)
      · rw [← hd.1]; exact rn_isF _
      · rw [← hd.2]; exact rn_isF _
    · rw [Fl.fin_lt_fin]; linarith
  · exact (by decide +kernel : Fl.ninf < Fl.fin 0)

theorem IsF.two_mul {q : ℚ} (h : IsF q) : IsF (2 * q) := by
  obtain ⟨m, e, h1, h2, rfl⟩ := h
  refine ⟨m, e + 1, h1, by omega, ?_⟩
  rw [zpow_add₀ (by norm_num), zpow_one]
  ring

/-- `MirrorLaw` holds in double precision. -/
theorem mirrorLaw (fn : Fn → Fl → Fl) {a b : ℚ} (ha : Bound a) (hb : Bound b) : @Repair.MirrorLaw (float64 fn) (.fin a) (.fin b) := by
  letI := float64 fn
  have h2 : ∀ q : ℚ, Bound q → (2 * Fl.fin q : Fl) = .fin (2 * q) := by
    intro q hq
    change rnd (2 * q) = _
    refine rnd_of_isF hq.1.two_mul ?_
    rw [abs_mul, abs_of_pos (by norm_num)]
    have := hq.2
    have hP : (0 : ℚ) < 2 ^ 1022 := by positivity
    rw [pow_double 1023, pow_double 1022]
    generalize (2 : ℚ) ^ 1022 = P at hP this
    linarith
  have hr : ∀ q, Bound q → rnd q = .fin q := fun q hq => rnd_of_isF hq.1 (lt_of_le_of_lt hq.2 (pow_lt_pow_right₀ (by norm_num) (by norm_num)))
  constructor
  · intro v hv
    rw [h2 a ha]
    change ¬ sub _ v < _
    cases v with
    | fin v =>
      simp at hv
      simp only [sub]
      split
      · rw [← hr a ha]
        exact Fl.not_lt_of_le (rnd_mono (by linarith))
      · rw [Fl.fin_lt_fin]; linarith
    | ninf => change ¬ Fl.pinf < _; simp
    | nan => simp at hv
    | pinf => simp at hv
  · intro v hv
    rw [h2 b hb]
    change ¬ _ < sub _ v
    cases v with
    | fin v =>
      simp at hv
      simp only [sub]
      split
      · rw [← hr b hb]
        exact Fl.not_lt_of_le (rnd_mono (by linarith))
      · rw [Fl.fin_lt_fin]; linarith
    | pinf => change ¬ _ < Fl.ninf; simp
    | nan => simp at hv
    | ninf => simp at hv

/-- The rounding of 1/10 is the double printed as 0.1, and `0.1 + 0.2` is `0.30000000000000004`. -/
example : rnd (1 / 10) = .fin (3602879701896397 / 36028797018963968) := by decide +kernel
example : letI := float64; (Fl.fin (3602879701896397 / 36028797018963968) + .fin (3602879701896397 / 18014398509481984) : Fl) =
    .fin (1351079888211149 / 4503599627370496) := by decide +kernel
example : rnd (2 ^ 1024) = .pinf := by decide +kernel
example : rnd (1 / 2 ^ 1075) = .fin 0 ∧ rnd (3 / 2 ^ 1075) = .fin (2 / 2 ^ 1074) := by decide +kernel

end NiaPy.Float64
