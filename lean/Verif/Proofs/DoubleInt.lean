/-
Integers of moderate size as `double`s.
-/
import Verif.Proofs.DoublePrecise

namespace Verif

deriving instance DecidableEq for Double

namespace Double

/-- The integer `k` as a `double`. -/
def ofNat (k : ℕ) : Double := Arith.lit (k : ℚ)

theorem ofNat_form {k : ℕ} (hk : k ≤ 2 ^ 50) :
    ∃ (m : ℕ) (e : ℤ) (h : IsDouble m e), ofNat k = finite false m e h ∧ (m : ℚ) * 2 ^ e = k := by
  rcases Nat.eq_zero_or_pos k with rfl | h0
  · refine ⟨0, -1074, by decide, ?_, by simp⟩
    show ofRat false ((0 : ℕ) : ℚ) = zero false
    unfold ofRat
    rw [if_pos (by simp)]
  · have hv := lit_nat h0 hk
    have hx : (0 : ℚ) < k := by exact_mod_cast h0
    have hd : ofNat k = round false |((k : ℚ))| := by
      show ofRat false (k : ℚ) = _
      unfold ofRat
      rw [if_neg hx.ne', decide_eq_false (not_lt.mpr hx.le)]
    have hs : sign (ofNat k) = false := by rw [hd, sign_round]
    change val (ofNat k) = X.fin (k : ℚ) at hv
    generalize ofNat k = x at hv hs
    cases x with
    | finite s m e h =>
      simp only [sign] at hs
      subst hs
      refine ⟨m, e, h, rfl, ?_⟩
      simpa [val, signed] using hv
    | infinite s => cases s <;> simp [val] at hv
    | nan => simp [val] at hv

theorem val_ofNat {k : ℕ} (hk : k ≤ 2 ^ 50) : val (ofNat k) = X.fin (k : ℚ) := by
  obtain ⟨m, e, h, h1, h2⟩ := ofNat_form hk
  rw [h1]; simp [val, signed, h2]

theorem zero_eq : (Arith.zero : Double) = ofNat 0 := by
  unfold ofNat Arith.zero; simp

theorem add_ofNat {a b : ℕ} (ha : a ≤ 2 ^ 50) (hb : b ≤ 2 ^ 50) : Arith.add (ofNat a) (ofNat b) = ofNat (a + b) := by
  obtain ⟨m, e, h, h1, h2⟩ := ofNat_form ha
  obtain ⟨k, f, h', h3, h4⟩ := ofNat_form hb
  rw [h1, h3]
  show ofRat _ (signed false (m * 2 ^ e) + signed false (k * 2 ^ f)) = ofRat false _
  simp [signed, h2, h4]

theorem mul_ofNat {a b : ℕ} (ha : a ≤ 2 ^ 50) (hb : b ≤ 2 ^ 50) : Arith.mul (ofNat a) (ofNat b) = ofNat (a * b) := by
  obtain ⟨m, e, h, h1, h2⟩ := ofNat_form ha
  obtain ⟨k, f, h', h3, h4⟩ := ofNat_form hb
  rw [h1, h3]
  show ofRat _ (signed false (m * 2 ^ e) * signed false (k * 2 ^ f)) = ofRat false _
  simp [signed, h2, h4]

theorem div_ofNat {a b : ℕ} (hab : a * b ≤ 2 ^ 50) (hb : b ≤ 2 ^ 50) (h0 : b ≠ 0) :
    Arith.div (ofNat (a * b)) (ofNat b) = ofNat a := by
  obtain ⟨m, e, h, h1, h2⟩ := ofNat_form hab
  obtain ⟨k, f, h', h3, h4⟩ := ofNat_form hb
  have hk : k ≠ 0 := by
    rintro rfl
    simp at h4
    exact h0 (by exact_mod_cast h4.symm)
  have hq : (b : ℚ) ≠ 0 := by exact_mod_cast h0
  rw [h1, h3]
  show (if k = 0 then _ else ofRat _ (signed false (m * 2 ^ e) / signed false (k * 2 ^ f))) = ofRat false _
  rw [if_neg hk]
  simp only [signed, h2, h4]
  push_cast
  simp [hq]

theorem lt_ofNat {a b : ℕ} (ha : a ≤ 2 ^ 50) (hb : b ≤ 2 ^ 50) : Arith.lt (ofNat a) (ofNat b) = decide (a < b) := by
  show X.lt (val _) (val _) = _
  rw [val_ofNat ha, val_ofNat hb]
  simp [X.lt]

theorem eq_ofNat {a b : ℕ} (ha : a ≤ 2 ^ 50) (hb : b ≤ 2 ^ 50) : Arith.eq (ofNat a) (ofNat b) = decide (a = b) := by
  show X.eq (val _) (val _) = _
  rw [val_ofNat ha, val_ofNat hb]
  simp [X.eq]

theorem le_ofNat {a b : ℕ} (ha : a ≤ 2 ^ 50) (hb : b ≤ 2 ^ 50) : Arith.le (ofNat a) (ofNat b) = decide (a ≤ b) := by
  show X.le (val _) (val _) = _
  rw [val_ofNat ha, val_ofNat hb]
  simp [X.le, X.lt, X.eq, le_iff_lt_or_eq]

end Double
end Verif
