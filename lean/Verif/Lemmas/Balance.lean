import Verif.Lemmas.Curl
/-
Energy balance of the leapfrog scheme on a tensor mesh with conducting walls. Pure mathematics.
-/
namespace Vulture.Energy
open Finset
variable {px py pz : ℕ} (X : Ax px) (Y : Ax py) (Z : Ax pz)

def addV (P Q : V3) : V3 :=
  ⟨fun a b c => P.x a b c + Q.x a b c, fun a b c => P.y a b c + Q.y a b c, fun a b c => P.z a b c + Q.z a b c⟩

theorem dotH_add (P Q R : V3) : dotH X Y Z (addV P Q) R = dotH X Y Z P R + dotH X Y Z Q R := by
  unfold dotH addV
  have e1 := sum3_add (px+2) (py+1) (pz+1) (fun a b c => X.dh a * Y.de b * Z.de c * (P.x a b c * R.x a b c))
    (fun a b c => X.dh a * Y.de b * Z.de c * (Q.x a b c * R.x a b c))
  have e2 := sum3_add (px+1) (py+2) (pz+1) (fun a b c => X.de a * Y.dh b * Z.de c * (P.y a b c * R.y a b c))
    (fun a b c => X.de a * Y.dh b * Z.de c * (Q.y a b c * R.y a b c))
  have e3 := sum3_add (px+1) (py+1) (pz+2) (fun a b c => X.de a * Y.de b * Z.dh c * (P.z a b c * R.z a b c))
    (fun a b c => X.de a * Y.de b * Z.dh c * (Q.z a b c * R.z a b c))
  simp only [add_mul, mul_add]
  rw [e1, e2, e3]; ring

theorem curlE_add (P Q : V3) : curlE X Y Z (addV P Q) = addV (curlE X Y Z P) (curlE X Y Z Q) := by
  unfold curlE addV
  congr 1 <;> (funext a b c; ring)

/-- Sum of a sample-wise identity with three face fields. -/
theorem dotH_congr {P P' Q Q' : V3}
    (hx : ∀ a b c, a < px+2 → b < py+1 → c < pz+1 → P.x a b c * Q.x a b c = P'.x a b c * Q'.x a b c)
    (hy : ∀ a b c, a < px+1 → b < py+2 → c < pz+1 → P.y a b c * Q.y a b c = P'.y a b c * Q'.y a b c)
    (hz : ∀ a b c, a < px+1 → b < py+1 → c < pz+2 → P.z a b c * Q.z a b c = P'.z a b c * Q'.z a b c) :
    dotH X Y Z P Q = dotH X Y Z P' Q' := by
  unfold dotH
  congr 1
  · congr 1
    · exact sum3_congr fun a b c h1 h2 h3 => by rw [hx a b c h1 h2 h3]
    · exact sum3_congr fun a b c h1 h2 h3 => by rw [hy a b c h1 h2 h3]
  · exact sum3_congr fun a b c h1 h2 h3 => by rw [hz a b c h1 h2 h3]

theorem dotI_congr {P P' Q Q' : V3}
    (hx : ∀ a b c, a < px+1 → b < py → c < pz → P.x a (b+1) (c+1) * Q.x a b c = P'.x a (b+1) (c+1) * Q'.x a b c)
    (hy : ∀ a b c, a < px → b < py+1 → c < pz → P.y (a+1) b (c+1) * Q.y a b c = P'.y (a+1) b (c+1) * Q'.y a b c)
    (hz : ∀ a b c, a < px → b < py → c < pz+1 → P.z (a+1) (b+1) c * Q.z a b c = P'.z (a+1) (b+1) c * Q'.z a b c) :
    dotI X Y Z P Q = dotI X Y Z P' Q' := by
  unfold dotI
  congr 1
  · congr 1
    · exact sum3_congr fun a b c h1 h2 h3 => by rw [hx a b c h1 h2 h3]
    · exact sum3_congr fun a b c h1 h2 h3 => by rw [hy a b c h1 h2 h3]
  · exact sum3_congr fun a b c h1 h2 h3 => by rw [hz a b c h1 h2 h3]

theorem dotH_smul (t : ℝ) (P Q : V3) :
    dotH X Y Z ⟨fun a b c => t * P.x a b c, fun a b c => t * P.y a b c, fun a b c => t * P.z a b c⟩ Q =
      t * dotH X Y Z P Q := by
  unfold dotH
  rw [mul_add, mul_add, ← sum3_mul, ← sum3_mul, ← sum3_mul]
  congr 1
  · congr 1
    · exact sum3_congr fun a b c _ _ _ => by ring
    · exact sum3_congr fun a b c _ _ _ => by ring
  · exact sum3_congr fun a b c _ _ _ => by ring

/-- Combination of interior inner products. -/
theorem dotI_lin {P Q P' Q' P'' Q'' P3 Q3 : V3} (s t : ℝ)
    (hx : ∀ a b c, a < px+1 → b < py → c < pz → P.x a (b+1) (c+1) * Q.x a b c - P'.x a (b+1) (c+1) * Q'.x a b c =
      s * (P''.x a (b+1) (c+1) * Q''.x a b c) - t * (P3.x a (b+1) (c+1) * Q3.x a b c))
    (hy : ∀ a b c, a < px → b < py+1 → c < pz → P.y (a+1) b (c+1) * Q.y a b c - P'.y (a+1) b (c+1) * Q'.y a b c =
      s * (P''.y (a+1) b (c+1) * Q''.y a b c) - t * (P3.y (a+1) b (c+1) * Q3.y a b c))
    (hz : ∀ a b c, a < px → b < py → c < pz+1 → P.z (a+1) (b+1) c * Q.z a b c - P'.z (a+1) (b+1) c * Q'.z a b c =
      s * (P''.z (a+1) (b+1) c * Q''.z a b c) - t * (P3.z (a+1) (b+1) c * Q3.z a b c)) :
    dotI X Y Z P Q - dotI X Y Z P' Q' = s * dotI X Y Z P'' Q'' - t * dotI X Y Z P3 Q3 := by
  have ex : sum3 (px+1) py pz (fun a b c => X.de a * Y.dh (b+1) * Z.dh (c+1) * (P.x a (b+1) (c+1) * Q.x a b c)) -
      sum3 (px+1) py pz (fun a b c => X.de a * Y.dh (b+1) * Z.dh (c+1) * (P'.x a (b+1) (c+1) * Q'.x a b c)) =
      s * sum3 (px+1) py pz (fun a b c => X.de a * Y.dh (b+1) * Z.dh (c+1) * (P''.x a (b+1) (c+1) * Q''.x a b c)) -
      t * sum3 (px+1) py pz (fun a b c => X.de a * Y.dh (b+1) * Z.dh (c+1) * (P3.x a (b+1) (c+1) * Q3.x a b c)) := by
    rw [← sum3_mul, ← sum3_mul, ← sum3_sub, ← sum3_sub]
    refine sum3_congr fun a b c h1 h2 h3 => ?_
    have := hx a b c h1 h2 h3
    linear_combination (X.de a * Y.dh (b+1) * Z.dh (c+1)) * this
  have ey : sum3 px (py+1) pz (fun a b c => X.dh (a+1) * Y.de b * Z.dh (c+1) * (P.y (a+1) b (c+1) * Q.y a b c)) -
      sum3 px (py+1) pz (fun a b c => X.dh (a+1) * Y.de b * Z.dh (c+1) * (P'.y (a+1) b (c+1) * Q'.y a b c)) =
      s * sum3 px (py+1) pz (fun a b c => X.dh (a+1) * Y.de b * Z.dh (c+1) * (P''.y (a+1) b (c+1) * Q''.y a b c)) -
      t * sum3 px (py+1) pz (fun a b c => X.dh (a+1) * Y.de b * Z.dh (c+1) * (P3.y (a+1) b (c+1) * Q3.y a b c)) := by
    rw [← sum3_mul, ← sum3_mul, ← sum3_sub, ← sum3_sub]
    refine sum3_congr fun a b c h1 h2 h3 => ?_
    have := hy a b c h1 h2 h3
    linear_combination (X.dh (a+1) * Y.de b * Z.dh (c+1)) * this
  have ez : sum3 px py (pz+1) (fun a b c => X.dh (a+1) * Y.dh (b+1) * Z.de c * (P.z (a+1) (b+1) c * Q.z a b c)) -
      sum3 px py (pz+1) (fun a b c => X.dh (a+1) * Y.dh (b+1) * Z.de c * (P'.z (a+1) (b+1) c * Q'.z a b c)) =
      s * sum3 px py (pz+1) (fun a b c => X.dh (a+1) * Y.dh (b+1) * Z.de c * (P''.z (a+1) (b+1) c * Q''.z a b c)) -
      t * sum3 px py (pz+1) (fun a b c => X.dh (a+1) * Y.dh (b+1) * Z.de c * (P3.z (a+1) (b+1) c * Q3.z a b c)) := by
    rw [← sum3_mul, ← sum3_mul, ← sum3_sub, ← sum3_sub]
    refine sum3_congr fun a b c h1 h2 h3 => ?_
    have := hz a b c h1 h2 h3
    linear_combination (X.dh (a+1) * Y.dh (b+1) * Z.de c) * this
  unfold dotI
  linear_combination ex + ey + ez

/-- One sample of the electric update: free or conducting. -/
def EdgeLaw (dt eps sigma e e' q : ℝ) : Prop :=
  (e = 0 ∧ e' = 0) ∨ eps * (e' - e) + dt * sigma * ((e' + e) / 2) = dt * q

/-- The conserved quadratic form. -/
noncomputable def form (dt : ℝ) (eps mu E H : V3) : ℝ :=
  dotE X Y Z (wmul eps E) E + dotH X Y Z (wmul mu H) H + dt * dotH X Y Z (curlE X Y Z E) H

theorem edge_energy {dt eps sigma e e' q : ℝ} (h : EdgeLaw dt eps sigma e e' q) :
    eps * e' * e' - eps * e * e = dt * ((e + e') * q) - dt / 2 * (sigma * (e + e') * (e + e')) := by
  rcases h with ⟨rfl, rfl⟩ | h
  · ring
  · linear_combination (e' + e) * h

/-- Balance of one step. -/
theorem balance (dt : ℝ) (eps sigma mu E E' H H' : V3) (hE : Walls px py pz E) (hE' : Walls px py pz E')
    (ex : ∀ a b c, a < px+1 → b < py → c < pz → EdgeLaw dt (eps.x a (b+1) (c+1)) (sigma.x a (b+1) (c+1))
      (E.x a (b+1) (c+1)) (E'.x a (b+1) (c+1)) ((curlH X Y Z H).x a b c))
    (ey : ∀ a b c, a < px → b < py+1 → c < pz → EdgeLaw dt (eps.y (a+1) b (c+1)) (sigma.y (a+1) b (c+1))
      (E.y (a+1) b (c+1)) (E'.y (a+1) b (c+1)) ((curlH X Y Z H).y a b c))
    (ez : ∀ a b c, a < px → b < py → c < pz+1 → EdgeLaw dt (eps.z (a+1) (b+1) c) (sigma.z (a+1) (b+1) c)
      (E.z (a+1) (b+1) c) (E'.z (a+1) (b+1) c) ((curlH X Y Z H).z a b c))
    (hx : ∀ a b c, a < px+2 → b < py+1 → c < pz+1 →
      mu.x a b c * (H'.x a b c - H.x a b c) = - dt * (curlE X Y Z E').x a b c)
    (hy : ∀ a b c, a < px+1 → b < py+2 → c < pz+1 →
      mu.y a b c * (H'.y a b c - H.y a b c) = - dt * (curlE X Y Z E').y a b c)
    (hz : ∀ a b c, a < px+1 → b < py+1 → c < pz+2 →
      mu.z a b c * (H'.z a b c - H.z a b c) = - dt * (curlE X Y Z E').z a b c) :
    form X Y Z dt eps mu E' H' = form X Y Z dt eps mu E H -
      dt / 2 * dotE X Y Z (wmul sigma (addV E E')) (addV E E') := by
  have wW : ∀ (w P : V3), Walls px py pz P → Walls px py pz (wmul w P) := fun w P h =>
    ⟨fun a b c h1 h2 h3 h4 => by simp [wmul, h.x a b c h1 h2 h3 h4],
     fun a b c h1 h2 h3 h4 => by simp [wmul, h.y a b c h1 h2 h3 h4],
     fun a b c h1 h2 h3 h4 => by simp [wmul, h.z a b c h1 h2 h3 h4]⟩
  have wS : Walls px py pz (addV E E') :=
    ⟨fun a b c h1 h2 h3 h4 => by simp [addV, hE.x a b c h1 h2 h3 h4, hE'.x a b c h1 h2 h3 h4],
     fun a b c h1 h2 h3 h4 => by simp [addV, hE.y a b c h1 h2 h3 h4, hE'.y a b c h1 h2 h3 h4],
     fun a b c h1 h2 h3 h4 => by simp [addV, hE.z a b c h1 h2 h3 h4, hE'.z a b c h1 h2 h3 h4]⟩
  -- magnetic part
  have hmag : dotH X Y Z (wmul mu H') H' + dt * dotH X Y Z (curlE X Y Z E') H' =
      dotH X Y Z (wmul mu H) H - dt * dotH X Y Z (curlE X Y Z E') H := by
    have s1 : dotH X Y Z (wmul mu H') H' + dt * dotH X Y Z (curlE X Y Z E') H' = dotH X Y Z (wmul mu H) H' := by
      rw [← dotH_smul, ← dotH_add]
      refine dotH_congr X Y Z ?_ ?_ ?_
      · intro a b c h1 h2 h3; have := hx a b c h1 h2 h3
        simp only [wmul, addV]; linear_combination (H'.x a b c) * this
      · intro a b c h1 h2 h3; have := hy a b c h1 h2 h3
        simp only [wmul, addV]; linear_combination (H'.y a b c) * this
      · intro a b c h1 h2 h3; have := hz a b c h1 h2 h3
        simp only [wmul, addV]; linear_combination (H'.z a b c) * this
    have s2 : dotH X Y Z (wmul mu H) H' = dotH X Y Z (wmul mu H) H + (-dt) * dotH X Y Z (curlE X Y Z E') H := by
      rw [← dotH_smul, ← dotH_add]
      refine dotH_congr X Y Z ?_ ?_ ?_
      · intro a b c h1 h2 h3; have := hx a b c h1 h2 h3
        simp only [wmul, addV]; linear_combination (H.x a b c) * this
      · intro a b c h1 h2 h3; have := hy a b c h1 h2 h3
        simp only [wmul, addV]; linear_combination (H.y a b c) * this
      · intro a b c h1 h2 h3; have := hz a b c h1 h2 h3
        simp only [wmul, addV]; linear_combination (H.z a b c) * this
    rw [s1, s2]; ring
  have hcurl : dotH X Y Z (curlE X Y Z E) H + dotH X Y Z (curlE X Y Z E') H =
      dotI X Y Z (addV E E') (curlH X Y Z H) := by
    rw [← dotH_add, ← curlE_add, adjoint X Y Z _ _ wS]
  have hel : dotI X Y Z (wmul eps E') (inner E') - dotI X Y Z (wmul eps E) (inner E) =
      dt * dotI X Y Z (addV E E') (curlH X Y Z H) -
        dt / 2 * dotI X Y Z (wmul sigma (addV E E')) (inner (addV E E')) := by
    refine dotI_lin X Y Z dt (dt/2) ?_ ?_ ?_
    · intro a b c h1 h2 h3; exact edge_energy (ex a b c h1 h2 h3)
    · intro a b c h1 h2 h3; exact edge_energy (ey a b c h1 h2 h3)
    · intro a b c h1 h2 h3; exact edge_energy (ez a b c h1 h2 h3)
  unfold form
  rw [dotE_eq_dotI X Y Z _ _ (wW _ _ hE'), dotE_eq_dotI X Y Z _ _ (wW _ _ hE), dotE_eq_dotI X Y Z _ _ (wW _ _ wS)]
  linear_combination hel + hmag - dt * hcurl

/-- Non-negativity and monotonicity in the weights. -/
theorem dotE_mono (w w' P : V3)
    (hx : ∀ a b c, a < px+1 → b < py+2 → c < pz+2 → w.x a b c ≤ w'.x a b c)
    (hy : ∀ a b c, a < px+2 → b < py+1 → c < pz+2 → w.y a b c ≤ w'.y a b c)
    (hz : ∀ a b c, a < px+2 → b < py+2 → c < pz+1 → w.z a b c ≤ w'.z a b c) :
    dotE X Y Z (wmul w P) P ≤ dotE X Y Z (wmul w' P) P := by
  unfold dotE wmul
  refine add_le_add (add_le_add ?_ ?_) ?_
  · refine sum3_le fun a b c h1 h2 h3 => ?_
    have := hx a b c h1 h2 h3
    have p := mul_pos (mul_pos (X.de_pos h1) (Y.dh_pos b h2)) (Z.dh_pos c h3)
    refine mul_le_mul_of_nonneg_left ?_ p.le
    nlinarith [mul_self_nonneg (P.x a b c)]
  · refine sum3_le fun a b c h1 h2 h3 => ?_
    have := hy a b c h1 h2 h3
    have p := mul_pos (mul_pos (X.dh_pos a h1) (Y.de_pos h2)) (Z.dh_pos c h3)
    refine mul_le_mul_of_nonneg_left ?_ p.le
    nlinarith [mul_self_nonneg (P.y a b c)]
  · refine sum3_le fun a b c h1 h2 h3 => ?_
    have := hz a b c h1 h2 h3
    have p := mul_pos (mul_pos (X.dh_pos a h1) (Y.dh_pos b h2)) (Z.de_pos h3)
    refine mul_le_mul_of_nonneg_left ?_ p.le
    nlinarith [mul_self_nonneg (P.z a b c)]

theorem dotH_mono (w w' P : V3)
    (hx : ∀ a b c, a < px+2 → b < py+1 → c < pz+1 → w.x a b c ≤ w'.x a b c)
    (hy : ∀ a b c, a < px+1 → b < py+2 → c < pz+1 → w.y a b c ≤ w'.y a b c)
    (hz : ∀ a b c, a < px+1 → b < py+1 → c < pz+2 → w.z a b c ≤ w'.z a b c) :
    dotH X Y Z (wmul w P) P ≤ dotH X Y Z (wmul w' P) P := by
  unfold dotH wmul
  refine add_le_add (add_le_add ?_ ?_) ?_
  · refine sum3_le fun a b c h1 h2 h3 => ?_
    have := hx a b c h1 h2 h3
    have p := mul_pos (mul_pos (X.dh_pos a h1) (Y.de_pos h2)) (Z.de_pos h3)
    refine mul_le_mul_of_nonneg_left ?_ p.le
    nlinarith [mul_self_nonneg (P.x a b c)]
  · refine sum3_le fun a b c h1 h2 h3 => ?_
    have := hy a b c h1 h2 h3
    have p := mul_pos (mul_pos (X.de_pos h1) (Y.dh_pos b h2)) (Z.de_pos h3)
    refine mul_le_mul_of_nonneg_left ?_ p.le
    nlinarith [mul_self_nonneg (P.y a b c)]
  · refine sum3_le fun a b c h1 h2 h3 => ?_
    have := hz a b c h1 h2 h3
    have p := mul_pos (mul_pos (X.de_pos h1) (Y.de_pos h2)) (Z.dh_pos c h3)
    refine mul_le_mul_of_nonneg_left ?_ p.le
    nlinarith [mul_self_nonneg (P.z a b c)]

/-- The coupling term, bounded by Young's inequality sample by sample. -/
theorem coupling (t θ : ℝ) (hθ : 0 < θ) (P Q : V3) :
    |t * dotH X Y Z P Q| ≤ θ * dotH X Y Z Q Q + t^2 / (4 * θ) * dotH X Y Z P P := by
  have young : ∀ w p q : ℝ, 0 ≤ w → |t * (w * (p * q))| ≤ θ * (w * (q * q)) + t^2 / (4 * θ) * (w * (p * p)) := by
    intro w p q hw
    have key : θ * (q * q) + t^2 / (4 * θ) * (p * p) - t * (p * q) = θ * (q - t / (2 * θ) * p)^2 := by
      field_simp; ring
    have key' : θ * (q * q) + t^2 / (4 * θ) * (p * p) + t * (p * q) = θ * (q + t / (2 * θ) * p)^2 := by
      field_simp; ring
    have k1 : 0 ≤ θ * (q * q) + t^2 / (4 * θ) * (p * p) - t * (p * q) := by rw [key]; positivity
    have k2 : 0 ≤ θ * (q * q) + t^2 / (4 * θ) * (p * p) + t * (p * q) := by rw [key']; positivity
    rw [abs_le]
    constructor <;> nlinarith [mul_nonneg hw k1, mul_nonneg hw k2]
  have sumabs : ∀ (p q r : ℕ) (f g : F3), (∀ a b c, a < p → b < q → c < r → |f a b c| ≤ g a b c) →
      |sum3 p q r f| ≤ sum3 p q r g := by
    intro p q r f g h
    rw [abs_le]
    constructor
    · rw [← sum3_neg]; exact sum3_le fun a b c h1 h2 h3 => (abs_le.1 (h a b c h1 h2 h3)).1
    · exact sum3_le fun a b c h1 h2 h3 => (abs_le.1 (h a b c h1 h2 h3)).2
  unfold dotH
  rw [mul_add, mul_add, ← sum3_mul, ← sum3_mul, ← sum3_mul]
  rw [show ∀ A B C A' B' C' : ℝ, θ * (A + B + C) + t^2 / (4 * θ) * (A' + B' + C') =
    (θ * A + t^2 / (4 * θ) * A') + (θ * B + t^2 / (4 * θ) * B') + (θ * C + t^2 / (4 * θ) * C') from
    fun A B C A' B' C' => by ring]
  refine (abs_add_le _ _).trans (add_le_add ((abs_add_le _ _).trans (add_le_add ?_ ?_)) ?_)
  · rw [← sum3_mul, ← sum3_mul, ← sum3_add]
    exact sumabs _ _ _ _ _ fun a b c h1 h2 h3 =>
      young _ _ _ (mul_pos (mul_pos (X.dh_pos a h1) (Y.de_pos h2)) (Z.de_pos h3)).le
  · rw [← sum3_mul, ← sum3_mul, ← sum3_add]
    exact sumabs _ _ _ _ _ fun a b c h1 h2 h3 =>
      young _ _ _ (mul_pos (mul_pos (X.de_pos h1) (Y.dh_pos b h2)) (Z.de_pos h3)).le
  · rw [← sum3_mul, ← sum3_mul, ← sum3_add]
    exact sumabs _ _ _ _ _ fun a b c h1 h2 h3 =>
      young _ _ _ (mul_pos (mul_pos (X.de_pos h1) (Y.de_pos h2)) (Z.dh_pos c h3)).le

/-- Below the Courant limit the coupling is a fraction `cn` of the stored energy. -/
theorem coercive (dt cn e0 m0 : ℝ) (hcn : 0 < cn) (he0 : 0 < e0) (hm0 : 0 < m0)
    (hdt : dt^2 * (1 / X.m^2 + 1 / Y.m^2 + 1 / Z.m^2) ≤ cn^2 * (e0 * m0)) (eps mu E H : V3)
    (hE : Walls px py pz E)
    (ex : ∀ a b c, a < px+1 → b < py+2 → c < pz+2 → e0 ≤ eps.x a b c)
    (ey : ∀ a b c, a < px+2 → b < py+1 → c < pz+2 → e0 ≤ eps.y a b c)
    (ez : ∀ a b c, a < px+2 → b < py+2 → c < pz+1 → e0 ≤ eps.z a b c)
    (mx : ∀ a b c, a < px+2 → b < py+1 → c < pz+1 → m0 ≤ mu.x a b c)
    (my : ∀ a b c, a < px+1 → b < py+2 → c < pz+1 → m0 ≤ mu.y a b c)
    (mz : ∀ a b c, a < px+1 → b < py+1 → c < pz+2 → m0 ≤ mu.z a b c) :
    |dt * dotH X Y Z (curlE X Y Z E) H| ≤
      cn * (dotE X Y Z (wmul eps E) E + dotH X Y Z (wmul mu H) H) := by
  have h1 := coupling X Y Z dt (cn * m0) (by positivity) (curlE X Y Z E) H
  have h2 := curl_bound X Y Z E hE
  have hE' := dotE_eq_dotI X Y Z E E hE
  have hc : ∀ (t : ℝ) (P : V3), dotE X Y Z (wmul ⟨fun _ _ _ => t, fun _ _ _ => t, fun _ _ _ => t⟩ P) P =
      t * dotE X Y Z P P := by
    intro t P
    unfold dotE wmul
    rw [mul_add, mul_add, ← sum3_mul, ← sum3_mul, ← sum3_mul]
    congr 1
    · congr 1
      · exact sum3_congr fun a b c _ _ _ => by ring
      · exact sum3_congr fun a b c _ _ _ => by ring
    · exact sum3_congr fun a b c _ _ _ => by ring
  have hcH : ∀ (t : ℝ) (P : V3), dotH X Y Z (wmul ⟨fun _ _ _ => t, fun _ _ _ => t, fun _ _ _ => t⟩ P) P =
      t * dotH X Y Z P P := fun t P => dotH_smul X Y Z t P P
  have h3 := dotE_mono X Y Z ⟨fun _ _ _ => e0, fun _ _ _ => e0, fun _ _ _ => e0⟩ eps E ex ey ez
  have h4 := dotH_mono X Y Z ⟨fun _ _ _ => m0, fun _ _ _ => m0, fun _ _ _ => m0⟩ mu H mx my mz
  rw [hc] at h3
  rw [hcH] at h4
  have nnE : 0 ≤ dotE X Y Z E E := by
    have := dotE_mono X Y Z ⟨fun _ _ _ => 0, fun _ _ _ => 0, fun _ _ _ => 0⟩
      ⟨fun _ _ _ => 1, fun _ _ _ => 1, fun _ _ _ => 1⟩ E (fun _ _ _ _ _ _ => zero_le_one)
      (fun _ _ _ _ _ _ => zero_le_one) (fun _ _ _ _ _ _ => zero_le_one)
    rw [hc, hc] at this; linarith
  rw [← hE'] at h2
  refine h1.trans ?_
  have h5 : dt^2 / (4 * (cn * m0)) * dotH X Y Z (curlE X Y Z E) (curlE X Y Z E) ≤
      cn * (e0 * dotE X Y Z E E) := by
    calc dt^2 / (4 * (cn * m0)) * dotH X Y Z (curlE X Y Z E) (curlE X Y Z E)
        ≤ dt^2 / (4 * (cn * m0)) * (4 * (1 / X.m^2 + 1 / Y.m^2 + 1 / Z.m^2) * dotE X Y Z E E) :=
          mul_le_mul_of_nonneg_left h2 (by positivity)
      _ = (dt^2 * (1 / X.m^2 + 1 / Y.m^2 + 1 / Z.m^2)) * (dotE X Y Z E E / (cn * m0)) := by
          have := hcn.ne'; have := hm0.ne'
          rw [div_mul_eq_mul_div, mul_div_assoc', div_eq_div_iff (by positivity) (by positivity)]
          ring
      _ ≤ (cn^2 * (e0 * m0)) * (dotE X Y Z E E / (cn * m0)) :=
          mul_le_mul_of_nonneg_right hdt (div_nonneg nnE (by positivity))
      _ = _ := by field_simp
  nlinarith [h3, h4, h5, mul_le_mul_of_nonneg_left h3 hcn.le, mul_le_mul_of_nonneg_left h4 hcn.le]

end Vulture.Energy
