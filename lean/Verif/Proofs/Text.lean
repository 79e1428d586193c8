/-
Text written and read back.
-/
import Verif.Model.Text
import Verif.Spec.ReadText
import Verif.Proofs.Double
import Mathlib.Data.Nat.Digits.Lemmas
import Mathlib.Tactic.FieldSimp

namespace Verif.Text
open Verif.Spec Verif

/-! ### Whole numbers -/

theorem digit_char {d : Nat} (h : d < 10) : (Nat.digitChar d).isDigit = true ∧ (Nat.digitChar d).toNat - '0'.toNat = d := by
  interval_cases d <;> decide

theorem natText_digits (n : Nat) : ∀ c ∈ natText n, c.isDigit = true := by
  intro c hc
  unfold natText at hc
  split at hc
  · simp at hc; subst hc; decide
  · simp only [List.mem_reverse, List.mem_map] at hc
    obtain ⟨d, hd, rfl⟩ := hc
    exact (digit_char (Nat.digits_lt_base (by norm_num) hd)).1

theorem natText_ne_nil (n : Nat) : natText n ≠ [] := by
  unfold natText
  split
  · simp
  · rename_i h
    simp [Nat.digits_ne_nil_iff_ne_zero.mpr h]

theorem fold_digits : ∀ l : List Nat, (∀ d ∈ l, d < 10) →
    ((l.map Nat.digitChar).reverse).foldl (fun n c => 10 * n + (c.toNat - '0'.toNat)) 0 = Nat.ofDigits 10 l := by
  intro l
  induction l with
  | nil => intro _; rfl
  | cons d l ih =>
    intro h
    rw [List.map_cons, List.reverse_cons, List.foldl_append, ih fun x hx => h x (by simp [hx])]
    simp only [List.foldl_cons, List.foldl_nil, Nat.ofDigits_cons]
    rw [(digit_char (h d (by simp))).2, Nat.add_comm]

theorem fold_natText (n : Nat) : (natText n).foldl (fun n c => 10 * n + (c.toNat - '0'.toNat)) 0 = n := by
  unfold natText
  split
  · rename_i h; subst h; decide
  · rw [fold_digits _ fun d hd => Nat.digits_lt_base (by norm_num) hd]
    exact Nat.ofDigits_digits 10 n

theorem readNat_natText (n : Nat) : readNat (natText n) = some n := by
  unfold readNat
  rw [if_pos ⟨natText_ne_nil n, List.all_eq_true.mpr (natText_digits n)⟩, fold_natText]

theorem readNat_twoDigits (n : Nat) : readNat (twoDigits n) = some n := by
  unfold twoDigits
  split
  · unfold readNat
    have hall : ('0' :: natText n).all Char.isDigit = true := List.all_eq_true.mpr fun c hc => by
      rcases List.mem_cons.mp hc with rfl | hc
      · decide
      · exact natText_digits n c hc
    rw [if_pos ⟨by simp, hall⟩, List.foldl_cons]
    exact congrArg some (fold_natText n)
  · exact readNat_natText n

theorem natText_length {p n : Nat} (h1 : 10 ^ p ≤ n) (h2 : n < 10 ^ (p + 1)) : (natText n).length = p + 1 := by
  have h0 : n ≠ 0 := by have := Nat.pow_pos (n := p) (show 0 < 10 by norm_num); omega
  unfold natText
  rw [if_neg h0, List.length_reverse, List.length_map, Nat.length_digits 10 n (by norm_num) h0]
  rw [Nat.log_eq_of_pow_le_of_lt_pow h1 h2]

theorem isDigit_ne {c d : Char} (h : c.isDigit = true) (hd : d.isDigit = false) : c ≠ d := by
  rintro rfl
  rw [h] at hd
  cases hd

theorem not_mem_natText {c : Char} (hc : c.isDigit = false) (n : Nat) : c ∉ natText n :=
  fun h => isDigit_ne (natText_digits n c h) hc rfl

theorem not_mem_twoDigits {c : Char} (hc : c.isDigit = false) (n : Nat) : c ∉ twoDigits n := by
  unfold twoDigits
  split
  · intro h
    rcases List.mem_cons.mp h with rfl | h
    · exact absurd hc (by decide)
    · exact not_mem_natText hc n h
  · exact not_mem_natText hc n

theorem readInt_plain {s : List Char} (h1 : '-' ∉ s) (h2 : '+' ∉ s) : readInt s = (readNat s).map fun n => (n : Int) := by
  unfold readInt
  split
  · exact absurd (List.mem_cons_self ..) h1
  · exact absurd (List.mem_cons_self ..) h2
  · rfl

theorem readInt_minus (s : List Char) : readInt ('-' :: s) = (readNat s).map fun n => -(n : Int) := by simp [readInt]

theorem readInt_plus (s : List Char) : readInt ('+' :: s) = (readNat s).map fun n => (n : Int) := by simp [readInt]

theorem readInt_intText (i : Int) : readInt (intText i) = some i := by
  unfold intText
  split
  · rename_i h
    rw [readInt_minus, readNat_natText]
    refine congrArg some ?_
    beta_reduce
    omega
  · rename_i h
    rw [readInt_plain (not_mem_natText (by decide) _) (not_mem_natText (by decide) _), readNat_natText]
    refine congrArg some ?_
    beta_reduce
    omega

theorem not_mem_intText {c : Char} (hc : c.isDigit = false) (hm : c ≠ '-') (i : Int) : c ∉ intText i := by
  unfold intText
  split
  · intro h
    rcases List.mem_cons.mp h with h | h
    · exact hm h
    · exact not_mem_natText hc _ h
  · exact not_mem_natText hc _

/-! ### Scientific notation -/

/-- The number in the text of `x > 0`. -/
def decimalValue (p : Nat) (x : ℚ) : ℚ := (decimalOf p x).1 * 10 ^ ((decimalOf p x).2 - p)

theorem roundEven_dist (x : ℚ) : |(Double.roundEven x : ℚ) - x| ≤ 1 / 2 := by
  have h1 := Int.floor_le x
  have h2 := Int.lt_floor_add_one x
  unfold Double.roundEven
  split
  · rw [abs_le]; constructor <;> linarith
  split
  · push_cast; rw [abs_le]; constructor <;> linarith
  split
  · rw [abs_le]; constructor <;> linarith
  · push_cast; rw [abs_le]; constructor <;> linarith

theorem decimalOf_spec (p : Nat) {x : ℚ} (hx : 0 < x) : 10 ^ p ≤ (decimalOf p x).1 ∧ (decimalOf p x).1 < 10 ^ (p + 1) ∧
    |decimalValue p x - x| ≤ x / (2 * 10 ^ p) := by
  have hb := Int.zpow_log_le_self (R := ℚ) (b := 10) (by norm_num) hx
  have ht := Int.lt_zpow_succ_log_self (R := ℚ) (b := 10) (by norm_num) x
  push_cast at hb ht
  have ten : (10 : ℚ) ≠ 0 := by norm_num
  have hu : (0 : ℚ) < 10 ^ (Int.log 10 x - p) := zpow_pos (by norm_num) _
  have e1 : (10 : ℚ) ^ (Int.log 10 x) = 10 ^ p * 10 ^ (Int.log 10 x - p) := by
    rw [← zpow_natCast (10 : ℚ) p, ← zpow_add₀ ten]
    congr 1
    omega
  have e2 : (10 : ℚ) ^ (Int.log 10 x + 1) = 10 ^ (p + 1) * 10 ^ (Int.log 10 x - p) := by
    rw [← zpow_natCast (10 : ℚ) (p + 1), ← zpow_add₀ ten]
    congr 1
    push_cast
    omega
  have hlo : ((10 ^ p : Int) : ℚ) ≤ x / 10 ^ (Int.log 10 x - p) := by
    rw [le_div_iff₀ hu]; push_cast; rw [← e1]; exact hb
  have hhi : x / 10 ^ (Int.log 10 x - p) ≤ ((10 ^ (p + 1) : Int) : ℚ) := by
    rw [div_le_iff₀ hu]; push_cast; rw [← e2]; exact ht.le
  have r1 := Double.le_roundEven hlo
  have r2 := Double.roundEven_le hhi
  have hd := roundEven_dist (x / 10 ^ (Int.log 10 x - p))
  have hpos : (0 : Int) < 10 ^ p := by positivity
  have hcast : (((Double.roundEven (x / 10 ^ (Int.log 10 x - p))).toNat : Nat) : ℚ)
      = (Double.roundEven (x / 10 ^ (Int.log 10 x - p)) : ℚ) := by
    have : ((Double.roundEven (x / 10 ^ (Int.log 10 x - p))).toNat : Int) = Double.roundEven (x / 10 ^ (Int.log 10 x - p)) :=
      Int.toNat_of_nonneg (by omega)
    exact_mod_cast this
  have herr : |(((Double.roundEven (x / 10 ^ (Int.log 10 x - p))).toNat : Nat) : ℚ) * 10 ^ (Int.log 10 x - p) - x| ≤ x / (2 * 10 ^ p) := by
    rw [hcast]
    have : (Double.roundEven (x / 10 ^ (Int.log 10 x - p)) : ℚ) * 10 ^ (Int.log 10 x - p) - x
        = ((Double.roundEven (x / 10 ^ (Int.log 10 x - p)) : ℚ) - x / 10 ^ (Int.log 10 x - p)) * 10 ^ (Int.log 10 x - p) := by
      field_simp
    rw [this, abs_mul, abs_of_pos hu]
    calc _ ≤ 1 / 2 * 10 ^ (Int.log 10 x - p) := mul_le_mul_of_nonneg_right hd hu.le
      _ ≤ x / (2 * 10 ^ p) := by
        rw [le_div_iff₀ (by positivity)]
        have : 1 / 2 * (10 : ℚ) ^ (Int.log 10 x - p) * (2 * 10 ^ p) = 10 ^ p * 10 ^ (Int.log 10 x - p) := by ring
        rw [this, ← e1]; exact hb
  unfold decimalValue decimalOf
  simp only
  split
  · rename_i heq
    refine ⟨le_rfl, Nat.pow_lt_pow_right (by norm_num) (by omega), ?_⟩
    rw [heq] at herr
    convert herr using 3
    push_cast
    rw [show Int.log 10 x + 1 - (p : Int) = (Int.log 10 x - p) + 1 by ring, zpow_add₀ ten, pow_succ]
    ring
  · rename_i hne
    have n1 : (10 ^ p : Nat) ≤ (Double.roundEven (x / 10 ^ (Int.log 10 x - p))).toNat := by
      zify
      rw [Int.toNat_of_nonneg (by omega)]
      exact r1
    have n2 : (Double.roundEven (x / 10 ^ (Int.log 10 x - p))).toNat ≤ 10 ^ (p + 1) := by
      zify
      rw [Int.toNat_of_nonneg (by omega)]
      exact r2
    exact ⟨n1, by omega, herr⟩

theorem readInt_exponent (E : Int) : readInt ((if E < 0 then '-' else '+') :: twoDigits E.natAbs) = some E := by
  split
  · rw [readInt_minus, readNat_twoDigits]
    refine congrArg some ?_
    beta_reduce
    omega
  · rw [readInt_plus, readNat_twoDigits]
    refine congrArg some ?_
    beta_reduce
    omega

theorem readScientific_parts {whole fraction : List Char} {d : Nat} {E : Int} {s : List Char}
    (hd : readNat (whole ++ fraction) = some d) (hE : readInt s = some E) (h1 : '.' ∉ whole) (h2 : '.' ∉ fraction)
    (h3 : 'e' ∉ whole) (h4 : 'e' ∉ fraction) (h5 : 'e' ∉ s) :
    readScientific (whole ++ '.' :: fraction ++ 'e' :: s) = some ((d : ℚ) * 10 ^ (E - fraction.length)) := by
  unfold readScientific
  have hm : 'e' ∉ whole ++ '.' :: fraction := by
    intro h
    rcases List.mem_append.mp h with h | h
    · exact h3 h
    · rcases List.mem_cons.mp h with h | h
      · exact absurd h (by decide)
      · exact h4 h
  rw [List.splitOn_append_cons_self, List.splitOn_eq_singleton hm, List.splitOn_eq_singleton h5]
  simp only [List.singleton_append]
  rw [List.splitOn_append_cons_self, List.splitOn_eq_singleton h1, List.splitOn_eq_singleton h2]
  simp only [List.singleton_append, hd, hE]
  rfl

theorem readScientific_magnitude (p : Nat) {x : ℚ} (hx : 0 < x) :
    readScientific (magnitudeText p x) = some (decimalValue p x) := by
  obtain ⟨h1, h2, _⟩ := decimalOf_spec p hx
  unfold magnitudeText
  rw [if_neg hx.ne']
  have hl := natText_length h1 h2
  have hlen : ((natText (decimalOf p x).1).drop 1).length = p := by simp [hl]
  have hE : 'e' ∉ (if (decimalOf p x).2 < 0 then '-' else '+') :: twoDigits (decimalOf p x).2.natAbs := by
    intro h
    rcases List.mem_cons.mp h with h | h
    · split at h <;> exact absurd h (by decide)
    · exact not_mem_twoDigits (by decide) _ h
  have hin : ∀ {c : Char}, c.isDigit = false → c ∉ (natText (decimalOf p x).1).take 1 ∧ c ∉ (natText (decimalOf p x).1).drop 1 :=
    fun hc => ⟨fun h => not_mem_natText hc _ (List.mem_of_mem_take h), fun h => not_mem_natText hc _ (List.mem_of_mem_drop h)⟩
  have hd : readNat ((natText (decimalOf p x).1).take 1 ++ (natText (decimalOf p x).1).drop 1) = some (decimalOf p x).1 := by
    rw [List.take_append_drop]; exact readNat_natText _
  rw [readScientific_parts hd (readInt_exponent _) (hin (by decide)).1 (hin (by decide)).2 (hin (by decide)).1 (hin (by decide)).2 hE, hlen]
  rfl

theorem readNat_zeros (p : Nat) : readNat ('0' :: List.replicate p '0') = some 0 := by
  unfold readNat
  have hall : ('0' :: List.replicate p '0').all Char.isDigit = true := List.all_eq_true.mpr fun c hc => by
    rcases List.mem_cons.mp hc with rfl | hc
    · decide
    · rw [List.eq_of_mem_replicate hc]; decide
  have : ∀ p : Nat, (List.replicate p '0').foldl (fun n c => 10 * n + (c.toNat - '0'.toNat)) 0 = 0 := by
    intro p
    induction p with
    | zero => rfl
    | succ p ih => rw [List.replicate_succ, List.foldl_cons]; exact ih
  rw [if_pos ⟨by simp, hall⟩, List.foldl_cons]
  exact congrArg some (this p)

theorem readScientific_zero (p : Nat) : readScientific (magnitudeText p 0) = some 0 := by
  unfold magnitudeText
  rw [if_pos rfl]
  have hz : ∀ {c : Char}, c ≠ '0' → c ∉ List.replicate p '0' := fun hc h => hc (List.eq_of_mem_replicate h)
  have := readScientific_parts (whole := ['0']) (fraction := List.replicate p '0') (d := 0) (E := 0) (s := ['+', '0', '0'])
    (readNat_zeros p) (by decide) (by decide) (hz (by decide)) (by decide) (hz (by decide)) (by decide)
  rw [Nat.cast_zero, zero_mul] at this
  exact this

/-! ### The nearest `double` -/

theorem roundEven_near {x : ℚ} {n : ℤ} (h : |x - n| < 1 / 2) : Double.roundEven x = n := by
  have h1 := roundEven_dist x
  have h2 : |(Double.roundEven x : ℚ) - n| < 1 := by
    have e : (Double.roundEven x : ℚ) - n = ((Double.roundEven x : ℚ) - x) + (x - n) := by ring
    rw [e]
    exact lt_of_le_of_lt (abs_add_le _ _) (by linarith)
  rw [abs_lt] at h2
  have l1 : Double.roundEven x - n < 1 := by exact_mod_cast h2.2
  have l2 : -1 < Double.roundEven x - n := by exact_mod_cast h2.1
  omega

theorem log_of {y : ℚ} {k : ℤ} (h1 : 2 ^ k ≤ y) (h2 : y < 2 ^ (k + 1)) : Int.log 2 y = k := by
  have hy : 0 < y := lt_of_lt_of_le (Double.two_zpow_pos k) h1
  apply le_antisymm
  · have : Int.log 2 y < k + 1 := (Int.lt_zpow_iff_log_lt (by norm_num) hy).mp (by exact_mod_cast h2)
    omega
  · exact (Int.zpow_le_iff_le_log (by norm_num) hy).mp (by exact_mod_cast h1)

/-- A number whose relative distance from a `double` is less than `2^-54` rounds to it. -/
theorem round_near (neg : Bool) {m : Nat} {e : Int} (h : IsDouble m e) (hm : m ≠ 0) {y : ℚ}
    (hy : |y - m * 2 ^ e| ≤ m * 2 ^ e / (2 * 10 ^ 16)) : Double.round neg y = .finite neg m e h := by
  obtain ⟨h1, h2, h3, h4⟩ := h
  have hu := Double.two_zpow_pos e
  have two : (2 : ℚ) ≠ 0 := by norm_num
  have hm1 : (1 : ℚ) ≤ m := by exact_mod_cast Nat.one_le_iff_ne_zero.mpr hm
  have hm2 : (m : ℚ) ≤ 2 ^ 53 - 1 := by
    have : m + 1 ≤ 2 ^ 53 := h1
    have : (m : ℚ) + 1 ≤ 2 ^ 53 := by exact_mod_cast this
    linarith
  -- in units of the last bit
  obtain ⟨z, rfl⟩ : ∃ z, y = z * 2 ^ e := ⟨y / 2 ^ e, by field_simp⟩
  have hz : |z - m| ≤ m / (2 * 10 ^ 16) := by
    have e1 : z * 2 ^ e - m * 2 ^ e = (z - m) * 2 ^ e := by ring
    rw [e1, abs_mul, abs_of_pos hu] at hy
    have e2 : (m : ℚ) * 2 ^ e / (2 * 10 ^ 16) = m / (2 * 10 ^ 16) * 2 ^ e := by ring
    rw [e2] at hy
    exact le_of_mul_le_mul_right hy hu
  have hz' := hz
  rw [abs_le] at hz'
  have hzhalf : |z - m| < 1 / 2 := lt_of_le_of_lt hz (by rw [div_lt_iff₀ (by norm_num)]; norm_num at hm2 ⊢; linarith)
  have hzlt := abs_lt.mp hzhalf
  have hztop : z < 2 ^ 53 := by linarith
  have hzpos : 0 < z := by linarith
  have hytop : z * 2 ^ e < 2 ^ (e + 53) := by
    rw [zpow_add₀ two, mul_comm ((2 : ℚ) ^ e)]
    exact mul_lt_mul_of_pos_right (by exact_mod_cast hztop) hu
  by_cases hlow : (2 : ℚ) ^ 52 ≤ z ∨ e = -1074
  · -- the same last bit
    have he : Double.expOf (z * 2 ^ e) = e := by
      unfold Double.expOf
      rcases hlow with hl | hl
      · have : Int.log 2 (z * 2 ^ e) = e + 52 := by
          apply log_of
          · rw [zpow_add₀ two, mul_comm ((2 : ℚ) ^ e)]
            exact mul_le_mul_of_nonneg_right (by exact_mod_cast hl) hu.le
          · rw [show e + 52 + 1 = e + 53 by ring]; exact hytop
        rw [this]
        omega
      · have : Int.log 2 (z * 2 ^ e) < e + 53 :=
          (Int.lt_zpow_iff_log_lt (by norm_num) (by positivity)).mp (by exact_mod_cast hytop)
        omega
    have hs : Double.sigOf (z * 2 ^ e) = m := by
      unfold Double.sigOf
      rw [he, mul_div_cancel_right₀ _ hu.ne', roundEven_near (n := (m : ℤ)) (by push_cast; exact hzhalf)]
      simp
    unfold Double.round Double.make
    rw [hs, he, dif_pos ⟨h1, h2, h3, h4⟩]
  · -- just below a power of two
    push Not at hlow
    obtain ⟨hl, he0⟩ := hlow
    have hm52 : 2 ^ 52 ≤ m := h4.resolve_right he0
    have hm52' : m = 2 ^ 52 := by
      by_contra hne
      have : 2 ^ 52 + 1 ≤ m := by omega
      have : (2 : ℚ) ^ 52 + 1 ≤ m := by exact_mod_cast this
      linarith
    subst hm52'
    push_cast at hz'
    have hq : |z * 2 - 2 ^ 53| < 1 / 2 := by
      rw [abs_lt]
      norm_num at hz' ⊢
      constructor <;> linarith
    have hlo51 : (2 : ℚ) ^ 51 ≤ z := by norm_num at hz' ⊢; linarith
    have he : Double.expOf (z * 2 ^ e) = e - 1 := by
      unfold Double.expOf
      have : Int.log 2 (z * 2 ^ e) = e + 51 := by
        apply log_of
        · rw [zpow_add₀ two, mul_comm ((2 : ℚ) ^ e)]
          exact mul_le_mul_of_nonneg_right (by exact_mod_cast hlo51) hu.le
        · rw [show e + 51 + 1 = e + 52 by ring, zpow_add₀ two, mul_comm ((2 : ℚ) ^ e)]
          exact mul_lt_mul_of_pos_right (by exact_mod_cast hl) hu
      rw [this]
      omega
    have hs : Double.sigOf (z * 2 ^ e) = 2 ^ 53 := by
      unfold Double.sigOf
      have e1 : z * 2 ^ e / 2 ^ (e - 1) = z * 2 := by
        rw [zpow_sub_one₀ two]; field_simp
      rw [he, e1, roundEven_near (n := ((2 ^ 53 : Nat) : ℤ)) (by push_cast; exact hq)]
      simp
    unfold Double.round Double.make
    rw [hs, he, dif_neg (by unfold IsDouble; omega)]
    have e2 : e - 1 + 1 = e := by ring
    rw [dif_pos ⟨rfl, by rw [e2]; exact ⟨h1, h2, h3, h4⟩⟩]
    congr 1

theorem not_mem_magnitude {c : Char} (h1 : c.isDigit = false) (h2 : c ∉ ['.', 'e', '-', '+']) (p : Nat) (x : ℚ) :
    c ∉ magnitudeText p x := by
  simp only [List.mem_cons, List.not_mem_nil, or_false, not_or] at h2
  obtain ⟨n1, n2, n3, n4⟩ := h2
  have n5 : c ≠ '0' := by rintro rfl; exact absurd h1 (by decide)
  unfold magnitudeText
  split
  · intro h
    simp only [List.cons_append, List.mem_cons, List.mem_append, List.not_mem_nil, or_false] at h
    rcases h with h | h | h | h | h | h | h
    · exact n5 h
    · exact n1 h
    · exact n5 (List.eq_of_mem_replicate h)
    · exact n2 h
    · exact n4 h
    · exact n5 h
    · exact n5 h
  · intro h
    simp only [List.append_assoc, List.cons_append, List.mem_cons, List.mem_append] at h
    rcases h with h | h | h | h | h | h
    · exact not_mem_natText h1 _ (List.mem_of_mem_take h)
    · exact n1 h
    · exact not_mem_natText h1 _ (List.mem_of_mem_drop h)
    · exact n2 h
    · split at h
      · exact n3 h
      · exact n4 h
    · exact not_mem_twoDigits h1 _ h

/-- The text of a magnitude begins with a digit. -/
theorem magnitude_head (p : Nat) {x : ℚ} (hx : 0 ≤ x) : ∃ c s, magnitudeText p x = c :: s ∧ c.isDigit = true := by
  rcases hx.eq_or_lt with rfl | hx
  · exact ⟨'0', _, by unfold magnitudeText; rw [if_pos rfl]; rfl, by decide⟩
  · unfold magnitudeText
    rw [if_neg hx.ne']
    obtain ⟨c, cs, e⟩ := List.exists_cons_of_ne_nil (natText_ne_nil (decimalOf p x).1)
    refine ⟨c, '.' :: (cs ++ 'e' :: (if (decimalOf p x).2 < 0 then '-' else '+') :: twoDigits (decimalOf p x).2.natAbs), ?_, ?_⟩
    · simp [e]
    · exact natText_digits _ c (by rw [e]; simp)

theorem readDouble_signed (neg : Bool) {s : List Char} (h : ∃ c t, s = c :: t ∧ c ≠ '-') :
    readDouble (signText neg ++ s) = readUnsigned neg s := by
  obtain ⟨c, t, rfl, hc⟩ := h
  cases neg
  · show readDouble (c :: t) = _
    unfold readDouble
    split
    · rename_i heq
      rw [List.cons.injEq] at heq
      exact absurd heq.1 hc
    · rfl
  · simp [signText, readDouble]

/-- The 17 digits determine the number. -/
theorem readDouble_doubleText {a : Double} (ha : a ≠ .nan) : readDouble (doubleText 16 a) = some a := by
  cases a with
  | nan => exact absurd rfl ha
  | infinite neg =>
    unfold doubleText
    rw [readDouble_signed neg ⟨'i', _, rfl, by decide⟩]
    simp [readUnsigned]
  | finite neg m e h =>
    unfold doubleText
    have hu := Double.two_zpow_pos e
    have hx : (0 : ℚ) ≤ m * 2 ^ e := by positivity
    obtain ⟨c, s, hs, hc⟩ := magnitude_head 16 hx
    rw [readDouble_signed neg ⟨c, s, hs, isDigit_ne hc (by decide)⟩]
    have hinf : magnitudeText 16 (m * 2 ^ e) ≠ ['i', 'n', 'f'] := by
      rw [hs]
      intro heq
      rw [List.cons.injEq] at heq
      exact isDigit_ne hc (by decide) heq.1
    unfold readUnsigned
    rw [if_neg hinf]
    by_cases hm : m = 0
    · subst hm
      have he : e = -1074 := by
        obtain ⟨_, _, _, h4⟩ := h
        rcases h4 with h4 | h4
        · norm_num at h4
        · exact h4
      subst he
      rw [Nat.cast_zero, zero_mul, readScientific_zero]
      simp only [Option.map_some, Double.signed_zero, Double.ofRat, if_true]
      rfl
    · have hpos : (0 : ℚ) < m * 2 ^ e := mul_pos (by exact_mod_cast Nat.pos_of_ne_zero hm) hu
      rw [readScientific_magnitude 16 hpos]
      obtain ⟨d1, _, hd⟩ := decimalOf_spec 16 hpos
      have hy : 0 < decimalValue 16 (m * 2 ^ e) := by
        unfold decimalValue
        refine mul_pos ?_ (zpow_pos (by norm_num) _)
        exact_mod_cast lt_of_lt_of_le (by norm_num) d1
      simp only [Option.map_some, Option.some.injEq]
      have hne : Double.signed neg (decimalValue 16 (m * 2 ^ e)) ≠ 0 := by
        cases neg <;> simp [Double.signed, hy.ne']
      unfold Double.ofRat
      rw [if_neg hne]
      have h1 : |Double.signed neg (decimalValue 16 (m * 2 ^ e))| = decimalValue 16 (m * 2 ^ e) := by
        cases neg <;> simp [Double.signed, abs_of_pos hy]
      have h2 : decide (Double.signed neg (decimalValue 16 (m * 2 ^ e)) < 0) = neg := by
        cases neg
        · simp [Double.signed, hy.le]
        · simp [Double.signed, hy]
      rw [h1, h2]
      exact round_near neg h hm hd

/-! ### Lines -/

/-- A line without its end. -/
def bare (l : Int × Int × Double) : List Char := intText l.1 ++ ' ' :: intText l.2.1 ++ ' ' :: doubleText 16 l.2.2

theorem not_mem_double {c : Char} (h1 : c.isDigit = false) (h2 : c ∉ ['.', 'e', '-', '+', 'i', 'n', 'f', 'a']) (a : Double) :
    c ∉ doubleText 16 a := by
  simp only [List.mem_cons, List.not_mem_nil, or_false, not_or] at h2
  obtain ⟨n1, n2, n3, n4, n5, n6, n7, n8⟩ := h2
  have hs : ∀ neg, c ∉ signText neg := by
    intro neg
    cases neg <;> simp [signText, n3]
  cases a with
  | nan => simp [doubleText, n6, n8]
  | infinite neg =>
    intro h
    rcases List.mem_append.mp h with h | h
    · exact hs neg h
    · simp [n5, n6, n7] at h
  | finite neg m e _ =>
    intro h
    rcases List.mem_append.mp h with h | h
    · exact hs neg h
    · exact not_mem_magnitude h1 (by simp [n1, n2, n3, n4]) _ _ h

theorem readLine_bare {l : Int × Int × Double} (h : l.2.2 ≠ .nan) : readLine (bare l) = some l := by
  unfold readLine bare
  rw [List.append_assoc, List.cons_append, List.splitOn_append_cons_self,
    List.splitOn_eq_singleton (not_mem_intText (by decide) (by decide) _), List.splitOn_append_cons_self,
    List.splitOn_eq_singleton (not_mem_intText (by decide) (by decide) _),
    List.splitOn_eq_singleton (not_mem_double (by decide) (by decide) _)]
  simp only [List.singleton_append, readInt_intText, readDouble_doubleText h]
  rfl

theorem newline_not_mem (l : Int × Int × Double) : '\n' ∉ bare l := by
  intro h
  unfold bare at h
  simp only [List.append_assoc, List.cons_append, List.mem_append, List.mem_cons] at h
  rcases h with h | h | h | h | h
  · exact not_mem_intText (by decide) (by decide) _ h
  · exact absurd h (by decide)
  · exact not_mem_intText (by decide) (by decide) _ h
  · exact absurd h (by decide)
  · exact not_mem_double (by decide) (by decide) _ h

/-- The text of some lines, written with 16 digits and flags for which the text is known. -/
theorem linesText_eq {flags : Nat} (hf : plainFlags flags = true) : ∀ ls : List (Int × Int × Double),
    linesText (ls.map fun l => (l.1, l.2.1, l.2.2, 16, flags)) = some (ls.flatMap fun l => bare l ++ ['\n']) := by
  intro ls
  induction ls with
  | nil => rfl
  | cons l ls ih =>
    rw [List.map_cons, linesText, ih]
    unfold lineText
    rw [if_pos ⟨by norm_num, hf⟩]
    simp [bare]

theorem linesText_append : ∀ (as bs : List (Int × Int × Double × Int × Nat)) {t : List Char}, linesText bs = some t →
    linesText (as ++ bs) = (linesText as).map (· ++ t) := by
  intro as
  induction as with
  | nil => intro bs t h; simp [linesText, h]
  | cons a as ih =>
    intro bs t h
    rw [List.cons_append, linesText, linesText, ih bs h]
    cases lineText a <;> cases linesText as <;> simp

theorem split_lines : ∀ ls : List (Int × Int × Double),
    (ls.flatMap fun l => bare l ++ ['\n']).splitOn '\n' = ls.map bare ++ [[]] := by
  intro ls
  induction ls with
  | nil => rfl
  | cons l ls ih =>
    rw [List.flatMap_cons, List.append_assoc, List.singleton_append, List.splitOn_append_cons_self,
      List.splitOn_eq_singleton (newline_not_mem l), ih]
    rfl

theorem readConnections_text {ls : List (Int × Int × Double)} (h : ∀ l ∈ ls, l.2.2 ≠ .nan) :
    readConnections (ls.flatMap fun l => bare l ++ ['\n']) = some ls := by
  unfold readConnections
  rw [split_lines]
  simp only [List.dropLast_concat]
  rw [if_pos (by simp)]
  induction ls with
  | nil => rfl
  | cons l ls ih =>
    rw [List.map_cons, List.mapM_cons, readLine_bare (h l (by simp)), ih fun x hx => h x (by simp [hx])]
    rfl

/-! ### Adding to zero -/

/-- A multiple of the least positive `double`. -/
theorem signed_multiple (neg : Bool) {m : Nat} {e : Int} (h : IsDouble m e) :
    ∃ k : Int, Double.signed neg (m * 2 ^ e) = k * 2 ^ (-1074 : Int) := by
  obtain ⟨_, h2, _, _⟩ := h
  have e1 : (2 : ℚ) ^ e = 2 ^ (e + 1074).toNat * 2 ^ (-1074 : Int) := by
    rw [← zpow_natCast (2 : ℚ), ← zpow_add₀ (by norm_num)]
    congr 1
    omega
  cases neg
  · refine ⟨m * 2 ^ (e + 1074).toNat, ?_⟩
    simp only [Double.signed, Bool.false_eq_true, if_false]
    rw [e1]
    push_cast
    ring
  · refine ⟨-(m * 2 ^ (e + 1074).toNat), ?_⟩
    simp only [Double.signed, if_true]
    rw [e1]
    push_cast
    ring

theorem zero_form {neg : Bool} {m : Nat} {e : Int} {h : IsDouble m e} (hm : m = 0) : Double.finite neg m e h = Double.zero neg := by
  subst hm
  have he : e = -1074 := by
    obtain ⟨_, _, _, h4⟩ := h
    rcases h4 with h4 | h4
    · norm_num at h4
    · exact h4
  subst he
  rfl

theorem ofRat_finite (s : Bool) {neg : Bool} {m : Nat} {e : Int} (h : IsDouble m e) (hm : m ≠ 0) :
    Double.ofRat s (Double.signed neg (m * 2 ^ e)) = .finite neg m e h := by
  have hpos : (0 : ℚ) < m * 2 ^ e := mul_pos (by exact_mod_cast Nat.pos_of_ne_zero hm) (Double.two_zpow_pos e)
  have hne : Double.signed neg ((m : ℚ) * 2 ^ e) ≠ 0 := by
    cases neg
    · exact hpos.ne'
    · exact (neg_lt_zero.mpr hpos).ne
  unfold Double.ofRat
  rw [if_neg hne]
  have h1 : |Double.signed neg ((m : ℚ) * 2 ^ e)| = m * 2 ^ e := by
    cases neg <;> simp [Double.signed, abs_of_pos hpos]
  have h2 : decide (Double.signed neg ((m : ℚ) * 2 ^ e) < 0) = neg := by
    cases neg
    · simpa [Double.signed] using hpos.le
    · simpa [Double.signed] using hpos
  rw [h1, h2]
  exact round_near neg h hm (by rw [sub_self, abs_zero]; positivity)

theorem add_zero_left {a : Double} (ha : a ≠ Double.zero true) : Arith.add Arith.zero a = a := by
  have hz : (Arith.zero : Double) = Double.zero false := by
    show Double.ofRat false 0 = _
    unfold Double.ofRat
    rw [if_pos rfl]
  rw [hz]
  cases a with
  | nan => rfl
  | infinite neg => rfl
  | finite neg m e h =>
    show Double.ofRat (false && neg) (Double.signed false ((0 : Nat) * 2 ^ (-1074 : Int)) + Double.signed neg (m * 2 ^ e)) = _
    have e0 : Double.signed false (((0 : Nat) : ℚ) * 2 ^ (-1074 : Int)) = 0 := by simp [Double.signed]
    rw [e0, zero_add]
    by_cases hm : m = 0
    · rw [zero_form hm] at ha ⊢
      have : neg = false := by
        cases neg
        · rfl
        · exact absurd rfl ha
      subst this
      subst hm
      simp [Double.signed, Double.ofRat]
    · exact ofRat_finite _ h hm

theorem round_ne_zero {neg : Bool} {x : ℚ} (hx : (2 : ℚ) ^ (-1074 : Int) ≤ x) : Double.round neg x ≠ Double.zero true := by
  have hpos : 0 < x := lt_of_lt_of_le (Double.two_zpow_pos _) hx
  have hs : Double.sigOf x ≠ 0 := by
    by_cases he : Double.expOf x = -1074
    · have h1 : (1 : Int) ≤ Double.roundEven (x / 2 ^ Double.expOf x) := by
        apply Double.le_roundEven
        rw [he, Int.cast_one, le_div_iff₀ (Double.two_zpow_pos _), one_mul]
        exact hx
      have := Double.sigOf_cast hpos.le
      omega
    · have := Double.sigOf_ge hpos he
      have : 0 < 2 ^ 52 := by norm_num
      omega
  unfold Double.round Double.make Double.zero
  split
  · intro h
    rw [Double.finite.injEq] at h
    exact hs h.2.1
  · split
    · intro h
      rw [Double.finite.injEq] at h
      exact absurd h.2.1 (by norm_num)
    · intro h; cases h

theorem add_ne_minus_zero {a b : Double} (ha : a ≠ Double.zero true) : Arith.add a b ≠ Double.zero true := by
  cases a with
  | nan => intro h; cases b <;> cases h
  | infinite s =>
    intro h
    cases b with
    | nan => cases h
    | finite => cases h
    | infinite t =>
      change (if s = t then Double.infinite s else Double.nan) = _ at h
      split at h <;> cases h
  | finite s m e hd =>
    cases b with
    | nan => intro h; cases h
    | infinite t => intro h; cases h
    | finite t k f hd' =>
      change Double.ofRat (s && t) (Double.signed s (m * 2 ^ e) + Double.signed t (k * 2 ^ f)) ≠ _
      unfold Double.ofRat
      split
      · rename_i h0
        cases s
        · intro h; cases h
        · cases t
          · intro h; cases h
          · exfalso
            have p1 : (0 : ℚ) ≤ m * 2 ^ e := mul_nonneg (Nat.cast_nonneg m) (Double.two_zpow_pos e).le
            have p2 : (0 : ℚ) ≤ k * 2 ^ f := mul_nonneg (Nat.cast_nonneg k) (Double.two_zpow_pos f).le
            simp only [Double.signed, if_true] at h0
            have hm : (m : ℚ) * 2 ^ e = 0 := by linarith
            have : m = 0 := by
              rcases mul_eq_zero.mp hm with h | h
              · exact_mod_cast h
              · exact absurd h (Double.two_zpow_pos e).ne'
            exact ha (zero_form this)
      · rename_i h0
        obtain ⟨i, hi⟩ := signed_multiple s hd
        obtain ⟨j, hj⟩ := signed_multiple t hd'
        apply round_ne_zero
        rw [hi, hj, ← add_mul] at h0 ⊢
        rw [abs_mul, abs_of_pos (Double.two_zpow_pos (-1074))]
        have hij : i + j ≠ 0 := by
          intro h
          apply h0
          have : ((i : ℚ) + j) = 0 := by exact_mod_cast h
          rw [this, zero_mul]
        have h1 : (1 : ℚ) ≤ |(i : ℚ) + j| := by
          have := Int.one_le_abs hij
          have : ((1 : Int) : ℚ) ≤ ((|i + j| : Int) : ℚ) := by exact_mod_cast this
          push_cast at this
          exact this
        exact le_mul_of_one_le_left (Double.two_zpow_pos _).le h1

theorem fold_ne_minus_zero : ∀ (l : List Double) {a : Double}, a ≠ Double.zero true → l.foldl Arith.add a ≠ Double.zero true := by
  intro l
  induction l with
  | nil => intro a ha; exact ha
  | cons b l ih => intro a ha; exact ih (add_ne_minus_zero ha)

end Verif.Text
