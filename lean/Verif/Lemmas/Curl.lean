import Verif.Lemmas.Energy
/-
The discrete curl on a tensor mesh with perfectly conducting walls: adjointness and norm bound.
Pure mathematics.
-/
namespace Vulture.Energy
open Finset

/-- Three components of a field. -/
structure V3 where
  x : F3
  y : F3
  z : F3

section
variable {px py pz : ℕ} (X : Ax px) (Y : Ax py) (Z : Ax pz)

/-- The tangential electric field vanishes on the six walls. -/
structure Walls (px py pz : ℕ) (E : V3) : Prop where
  x : ∀ a b c, a < px+1 → b < py+2 → c < pz+2 → (b = 0 ∨ b = py+1 ∨ c = 0 ∨ c = pz+1) → E.x a b c = 0
  y : ∀ a b c, a < px+2 → b < py+1 → c < pz+2 → (a = 0 ∨ a = px+1 ∨ c = 0 ∨ c = pz+1) → E.y a b c = 0
  z : ∀ a b c, a < px+2 → b < py+2 → c < pz+1 → (a = 0 ∨ a = px+1 ∨ b = 0 ∨ b = py+1) → E.z a b c = 0

/-- Discrete curl of the electric field on the faces. -/
noncomputable def curlE (E : V3) : V3 where
  x a b c := (E.z a (b+1) c - E.z a b c) / Y.de b - (E.y a b (c+1) - E.y a b c) / Z.de c
  y a b c := (E.x a b (c+1) - E.x a b c) / Z.de c - (E.z (a+1) b c - E.z a b c) / X.de a
  z a b c := (E.y (a+1) b c - E.y a b c) / X.de a - (E.x a (b+1) c - E.x a b c) / Y.de b

/-- Discrete curl of the magnetic field on the interior edges; the node indices are shifted by one so
that no index is negative. -/
noncomputable def curlH (H : V3) : V3 where
  x a b c := (H.z a (b+1) (c+1) - H.z a b (c+1)) / Y.dh (b+1) - (H.y a (b+1) (c+1) - H.y a (b+1) c) / Z.dh (c+1)
  y a b c := (H.x (a+1) b (c+1) - H.x (a+1) b c) / Z.dh (c+1) - (H.z (a+1) b (c+1) - H.z a b (c+1)) / X.dh (a+1)
  z a b c := (H.y (a+1) (b+1) c - H.y a (b+1) c) / X.dh (a+1) - (H.x (a+1) (b+1) c - H.x (a+1) b c) / Y.dh (b+1)

/-- Weighted inner product of face fields (weights: dual length times face area). -/
def dotH (P Q : V3) : ℝ :=
  sum3 (px+2) (py+1) (pz+1) (fun a b c => X.dh a * Y.de b * Z.de c * (P.x a b c * Q.x a b c)) +
  sum3 (px+1) (py+2) (pz+1) (fun a b c => X.de a * Y.dh b * Z.de c * (P.y a b c * Q.y a b c)) +
  sum3 (px+1) (py+1) (pz+2) (fun a b c => X.de a * Y.de b * Z.dh c * (P.z a b c * Q.z a b c))

/-- Weighted inner product of edge fields (weights: edge length times dual area). -/
def dotE (P Q : V3) : ℝ :=
  sum3 (px+1) (py+2) (pz+2) (fun a b c => X.de a * Y.dh b * Z.dh c * (P.x a b c * Q.x a b c)) +
  sum3 (px+2) (py+1) (pz+2) (fun a b c => X.dh a * Y.de b * Z.dh c * (P.y a b c * Q.y a b c)) +
  sum3 (px+2) (py+2) (pz+1) (fun a b c => X.dh a * Y.dh b * Z.de c * (P.z a b c * Q.z a b c))

/-- The same, restricted to interior edges; `Q` is indexed from the first interior node. -/
def dotI (P Q : V3) : ℝ :=
  sum3 (px+1) py pz (fun a b c => X.de a * Y.dh (b+1) * Z.dh (c+1) * (P.x a (b+1) (c+1) * Q.x a b c)) +
  sum3 px (py+1) pz (fun a b c => X.dh (a+1) * Y.de b * Z.dh (c+1) * (P.y (a+1) b (c+1) * Q.y a b c)) +
  sum3 px py (pz+1) (fun a b c => X.dh (a+1) * Y.dh (b+1) * Z.de c * (P.z (a+1) (b+1) c * Q.z a b c))

/-- Values on the interior edges, indexed from the first interior node. -/
def inner (P : V3) : V3 where
  x a b c := P.x a (b+1) (c+1)
  y a b c := P.y (a+1) b (c+1)
  z a b c := P.z (a+1) (b+1) c

/-- Multiplication by a material weight, sample by sample. -/
def wmul (w P : V3) : V3 :=
  ⟨fun a b c => w.x a b c * P.x a b c, fun a b c => w.y a b c * P.y a b c, fun a b c => w.z a b c * P.z a b c⟩

theorem dotE_eq_dotI (P Q : V3) (hP : Walls px py pz P) : dotE X Y Z P Q = dotI X Y Z P (inner Q) := by
  unfold dotE dotI inner
  congr 1
  · congr 1
    · rw [intB, intC]
      · intro a b ha hb; rw [hP.x a (b+1) 0 ha (by omega) (by omega) (by omega)]; ring
      · intro a b ha hb; rw [hP.x a (b+1) (pz+1) ha (by omega) (by omega) (by omega)]; ring
      · intro a c ha hc; rw [hP.x a 0 c ha (by omega) (by omega) (by omega)]; ring
      · intro a c ha hc; rw [hP.x a (py+1) c ha (by omega) (by omega) (by omega)]; ring
    · rw [intA, intC]
      · intro a b ha hb; rw [hP.y (a+1) b 0 (by omega) (by omega) (by omega) (by omega)]; ring
      · intro a b ha hb; rw [hP.y (a+1) b (pz+1) (by omega) (by omega) (by omega) (by omega)]; ring
      · intro b c hb hc; rw [hP.y 0 b c (by omega) (by omega) (by omega) (by omega)]; ring
      · intro b c hb hc; rw [hP.y (px+1) b c (by omega) (by omega) (by omega) (by omega)]; ring
  · rw [intA, intB]
    · intro a c ha hc; rw [hP.z (a+1) 0 c (by omega) (by omega) (by omega) (by omega)]; ring
    · intro a c ha hc; rw [hP.z (a+1) (py+1) c (by omega) (by omega) (by omega) (by omega)]; ring
    · intro b c hb hc; rw [hP.z 0 b c (by omega) (by omega) (by omega) (by omega)]; ring
    · intro b c hb hc; rw [hP.z (px+1) b c (by omega) (by omega) (by omega) (by omega)]; ring

/-- The two curls are adjoint. -/
theorem adjoint (E H : V3) (hE : Walls px py pz E) :
    dotH X Y Z (curlE X Y Z E) H = dotI X Y Z E (curlH X Y Z H) := by
  have zy : sum3 (px+2) (py+1) (pz+1) (fun a b c => (E.z a (b+1) c - E.z a b c) * (X.dh a * Z.de c * H.x a b c)) =
      - sum3 px py (pz+1) (fun a b c => E.z (a+1) (b+1) c *
        (X.dh (a+1) * Z.de c * H.x (a+1) (b+1) c - X.dh (a+1) * Z.de c * H.x (a+1) b c)) := by
    rw [sbpB, intA]
    · intro b c hb hc; rw [hE.z 0 (b+1) c (by omega) (by omega) (by omega) (by omega)]; ring
    · intro b c hb hc; rw [hE.z (px+1) (b+1) c (by omega) (by omega) (by omega) (by omega)]; ring
    · intro a c ha hc; exact hE.z a 0 c (by omega) (by omega) (by omega) (by omega)
    · intro a c ha hc; exact hE.z a (py+1) c (by omega) (by omega) (by omega) (by omega)
  have yz : sum3 (px+2) (py+1) (pz+1) (fun a b c => (E.y a b (c+1) - E.y a b c) * (X.dh a * Y.de b * H.x a b c)) =
      - sum3 px (py+1) pz (fun a b c => E.y (a+1) b (c+1) *
        (X.dh (a+1) * Y.de b * H.x (a+1) b (c+1) - X.dh (a+1) * Y.de b * H.x (a+1) b c)) := by
    rw [sbpC, intA]
    · intro b c hb hc; rw [hE.y 0 b (c+1) (by omega) (by omega) (by omega) (by omega)]; ring
    · intro b c hb hc; rw [hE.y (px+1) b (c+1) (by omega) (by omega) (by omega) (by omega)]; ring
    · intro a b ha hb; exact hE.y a b 0 (by omega) (by omega) (by omega) (by omega)
    · intro a b ha hb; exact hE.y a b (pz+1) (by omega) (by omega) (by omega) (by omega)
  have xz : sum3 (px+1) (py+2) (pz+1) (fun a b c => (E.x a b (c+1) - E.x a b c) * (X.de a * Y.dh b * H.y a b c)) =
      - sum3 (px+1) py pz (fun a b c => E.x a (b+1) (c+1) *
        (X.de a * Y.dh (b+1) * H.y a (b+1) (c+1) - X.de a * Y.dh (b+1) * H.y a (b+1) c)) := by
    rw [sbpC, intB]
    · intro a c ha hc; rw [hE.x a 0 (c+1) (by omega) (by omega) (by omega) (by omega)]; ring
    · intro a c ha hc; rw [hE.x a (py+1) (c+1) (by omega) (by omega) (by omega) (by omega)]; ring
    · intro a b ha hb; exact hE.x a b 0 (by omega) (by omega) (by omega) (by omega)
    · intro a b ha hb; exact hE.x a b (pz+1) (by omega) (by omega) (by omega) (by omega)
  have zx : sum3 (px+1) (py+2) (pz+1) (fun a b c => (E.z (a+1) b c - E.z a b c) * (Y.dh b * Z.de c * H.y a b c)) =
      - sum3 px py (pz+1) (fun a b c => E.z (a+1) (b+1) c *
        (Y.dh (b+1) * Z.de c * H.y (a+1) (b+1) c - Y.dh (b+1) * Z.de c * H.y a (b+1) c)) := by
    rw [sbpA, intB]
    · intro a c ha hc; rw [hE.z (a+1) 0 c (by omega) (by omega) (by omega) (by omega)]; ring
    · intro a c ha hc; rw [hE.z (a+1) (py+1) c (by omega) (by omega) (by omega) (by omega)]; ring
    · intro b c hb hc; exact hE.z 0 b c (by omega) (by omega) (by omega) (by omega)
    · intro b c hb hc; exact hE.z (px+1) b c (by omega) (by omega) (by omega) (by omega)
  have yx : sum3 (px+1) (py+1) (pz+2) (fun a b c => (E.y (a+1) b c - E.y a b c) * (Y.de b * Z.dh c * H.z a b c)) =
      - sum3 px (py+1) pz (fun a b c => E.y (a+1) b (c+1) *
        (Y.de b * Z.dh (c+1) * H.z (a+1) b (c+1) - Y.de b * Z.dh (c+1) * H.z a b (c+1))) := by
    rw [sbpA, intC]
    · intro a b ha hb; rw [hE.y (a+1) b 0 (by omega) (by omega) (by omega) (by omega)]; ring
    · intro a b ha hb; rw [hE.y (a+1) b (pz+1) (by omega) (by omega) (by omega) (by omega)]; ring
    · intro b c hb hc; exact hE.y 0 b c (by omega) (by omega) (by omega) (by omega)
    · intro b c hb hc; exact hE.y (px+1) b c (by omega) (by omega) (by omega) (by omega)
  have xy : sum3 (px+1) (py+1) (pz+2) (fun a b c => (E.x a (b+1) c - E.x a b c) * (X.de a * Z.dh c * H.z a b c)) =
      - sum3 (px+1) py pz (fun a b c => E.x a (b+1) (c+1) *
        (X.de a * Z.dh (c+1) * H.z a (b+1) (c+1) - X.de a * Z.dh (c+1) * H.z a b (c+1))) := by
    rw [sbpB, intC]
    · intro a b ha hb; rw [hE.x a (b+1) 0 (by omega) (by omega) (by omega) (by omega)]; ring
    · intro a b ha hb; rw [hE.x a (b+1) (pz+1) (by omega) (by omega) (by omega) (by omega)]; ring
    · intro a c ha hc; exact hE.x a 0 c (by omega) (by omega) (by omega) (by omega)
    · intro a c ha hc; exact hE.x a (py+1) c (by omega) (by omega) (by omega) (by omega)
  have lx : sum3 (px+2) (py+1) (pz+1) (fun a b c => X.dh a * Y.de b * Z.de c * ((curlE X Y Z E).x a b c * H.x a b c)) =
      sum3 (px+2) (py+1) (pz+1) (fun a b c => (E.z a (b+1) c - E.z a b c) * (X.dh a * Z.de c * H.x a b c)) -
      sum3 (px+2) (py+1) (pz+1) (fun a b c => (E.y a b (c+1) - E.y a b c) * (X.dh a * Y.de b * H.x a b c)) := by
    rw [← sum3_sub]
    refine sum3_congr fun a b c ha hb hc => ?_
    have h1 := (Y.de_pos hb).ne'
    have h2 := (Z.de_pos hc).ne'
    simp only [curlE]; field_simp
  have ly : sum3 (px+1) (py+2) (pz+1) (fun a b c => X.de a * Y.dh b * Z.de c * ((curlE X Y Z E).y a b c * H.y a b c)) =
      sum3 (px+1) (py+2) (pz+1) (fun a b c => (E.x a b (c+1) - E.x a b c) * (X.de a * Y.dh b * H.y a b c)) -
      sum3 (px+1) (py+2) (pz+1) (fun a b c => (E.z (a+1) b c - E.z a b c) * (Y.dh b * Z.de c * H.y a b c)) := by
    rw [← sum3_sub]
    refine sum3_congr fun a b c ha hb hc => ?_
    have h1 := (X.de_pos ha).ne'
    have h2 := (Z.de_pos hc).ne'
    simp only [curlE]; field_simp
  have lz : sum3 (px+1) (py+1) (pz+2) (fun a b c => X.de a * Y.de b * Z.dh c * ((curlE X Y Z E).z a b c * H.z a b c)) =
      sum3 (px+1) (py+1) (pz+2) (fun a b c => (E.y (a+1) b c - E.y a b c) * (Y.de b * Z.dh c * H.z a b c)) -
      sum3 (px+1) (py+1) (pz+2) (fun a b c => (E.x a (b+1) c - E.x a b c) * (X.de a * Z.dh c * H.z a b c)) := by
    rw [← sum3_sub]
    refine sum3_congr fun a b c ha hb hc => ?_
    have h1 := (X.de_pos ha).ne'
    have h2 := (Y.de_pos hb).ne'
    simp only [curlE]; field_simp
  have rx : sum3 (px+1) py pz (fun a b c => X.de a * Y.dh (b+1) * Z.dh (c+1) * (E.x a (b+1) (c+1) * (curlH X Y Z H).x a b c)) =
      sum3 (px+1) py pz (fun a b c => E.x a (b+1) (c+1) *
        (X.de a * Z.dh (c+1) * H.z a (b+1) (c+1) - X.de a * Z.dh (c+1) * H.z a b (c+1))) -
      sum3 (px+1) py pz (fun a b c => E.x a (b+1) (c+1) *
        (X.de a * Y.dh (b+1) * H.y a (b+1) (c+1) - X.de a * Y.dh (b+1) * H.y a (b+1) c)) := by
    rw [← sum3_sub]
    refine sum3_congr fun a b c ha hb hc => ?_
    have h1 := (Y.dh_pos (b+1) (by omega)).ne'
    have h2 := (Z.dh_pos (c+1) (by omega)).ne'
    simp only [curlH]; field_simp
  have ry : sum3 px (py+1) pz (fun a b c => X.dh (a+1) * Y.de b * Z.dh (c+1) * (E.y (a+1) b (c+1) * (curlH X Y Z H).y a b c)) =
      sum3 px (py+1) pz (fun a b c => E.y (a+1) b (c+1) *
        (X.dh (a+1) * Y.de b * H.x (a+1) b (c+1) - X.dh (a+1) * Y.de b * H.x (a+1) b c)) -
      sum3 px (py+1) pz (fun a b c => E.y (a+1) b (c+1) *
        (Y.de b * Z.dh (c+1) * H.z (a+1) b (c+1) - Y.de b * Z.dh (c+1) * H.z a b (c+1))) := by
    rw [← sum3_sub]
    refine sum3_congr fun a b c ha hb hc => ?_
    have h1 := (X.dh_pos (a+1) (by omega)).ne'
    have h2 := (Z.dh_pos (c+1) (by omega)).ne'
    simp only [curlH]; field_simp
  have rz : sum3 px py (pz+1) (fun a b c => X.dh (a+1) * Y.dh (b+1) * Z.de c * (E.z (a+1) (b+1) c * (curlH X Y Z H).z a b c)) =
      sum3 px py (pz+1) (fun a b c => E.z (a+1) (b+1) c *
        (Y.dh (b+1) * Z.de c * H.y (a+1) (b+1) c - Y.dh (b+1) * Z.de c * H.y a (b+1) c)) -
      sum3 px py (pz+1) (fun a b c => E.z (a+1) (b+1) c *
        (X.dh (a+1) * Z.de c * H.x (a+1) (b+1) c - X.dh (a+1) * Z.de c * H.x (a+1) b c)) := by
    rw [← sum3_sub]
    refine sum3_congr fun a b c ha hb hc => ?_
    have h1 := (X.dh_pos (a+1) (by omega)).ne'
    have h2 := (Y.dh_pos (b+1) (by omega)).ne'
    simp only [curlH]; field_simp
  unfold dotH dotI
  rw [lx, ly, lz, rx, ry, rz, zy, yz, xz, zx, yx, xy]
  ring

/-! ### Norm of the curl -/

theorem rot (p q r : ℕ) (f : F3) : sum3 p q r f = sum3 q r p (fun b c a => f a b c) := by
  rw [swap12, swap23]

/-- Mixed second differences: `P` vanishes at the ends of axes 1 and 2, `Q` at the ends of axis 3. -/
theorem cross (p q r : ℕ) (w : ℕ → ℝ) (P Q : F3)
    (hP : ∀ a b c, a < p+2 → b < q+2 → c < r+1 → (a = 0 ∨ a = p+1 ∨ b = 0 ∨ b = q+1) → P a b c = 0)
    (hQ : ∀ a b c, a < p+2 → b < q+1 → c < r+2 → (c = 0 ∨ c = r+1) → Q a b c = 0) :
    sum3 (p+2) (q+1) (r+1) (fun a b c => w a * ((P a (b+1) c - P a b c) * (Q a b (c+1) - Q a b c))) =
    sum3 p q r (fun a b c => w (a+1) * ((Q (a+1) (b+1) (c+1) - Q (a+1) b (c+1)) *
      (P (a+1) (b+1) (c+1) - P (a+1) (b+1) c))) := by
  rw [intA]
  rotate_left
  · intro b c hb hc
    rw [hP 0 (b+1) c (by omega) (by omega) (by omega) (by omega), hP 0 b c (by omega) (by omega) (by omega) (by omega)]; ring
  · intro b c hb hc
    rw [hP (p+1) (b+1) c (by omega) (by omega) (by omega) (by omega), hP (p+1) b c (by omega) (by omega) (by omega) (by omega)]; ring
  have e1 : sum3 p (q+1) (r+1) (fun a b c => w (a+1) * ((P (a+1) (b+1) c - P (a+1) b c) * (Q (a+1) b (c+1) - Q (a+1) b c))) =
      sum3 p (q+1) (r+1) (fun a b c => (P (a+1) (b+1) c - P (a+1) b c) * (w (a+1) * (Q (a+1) b (c+1) - Q (a+1) b c))) :=
    sum3_congr fun a b c _ _ _ => by ring
  rw [e1, sbpB p q (r+1) (fun a b c => P (a+1) b c)]
  rotate_left
  · intro a c ha hc; exact hP (a+1) 0 c (by omega) (by omega) (by omega) (by omega)
  · intro a c ha hc; exact hP (a+1) (q+1) c (by omega) (by omega) (by omega) (by omega)
  have e2 : sum3 p q (r+1) (fun a b c => P (a+1) (b+1) c * (w (a+1) * (Q (a+1) (b+1) (c+1) - Q (a+1) (b+1) c) -
        w (a+1) * (Q (a+1) b (c+1) - Q (a+1) b c))) =
      sum3 p q (r+1) (fun a b c => ((Q (a+1) (b+1) (c+1) - Q (a+1) b (c+1)) - (Q (a+1) (b+1) c - Q (a+1) b c)) *
        (w (a+1) * P (a+1) (b+1) c)) := sum3_congr fun a b c _ _ _ => by ring
  rw [e2, sbpC p q r (fun a b c => Q (a+1) (b+1) c - Q (a+1) b c), neg_neg]
  rotate_left
  · intro a b ha hb
    rw [hQ (a+1) (b+1) 0 (by omega) (by omega) (by omega) (by omega), hQ (a+1) b 0 (by omega) (by omega) (by omega) (by omega)]; ring
  · intro a b ha hb
    rw [hQ (a+1) (b+1) (r+1) (by omega) (by omega) (by omega) (by omega), hQ (a+1) b (r+1) (by omega) (by omega) (by omega) (by omega)]; ring
  exact sum3_congr fun a b c _ _ _ => by ring

/-- Discrete divergence at the interior nodes. -/
noncomputable def divE (E : V3) : F3 := fun a b c =>
  (E.x (a+1) (b+1) (c+1) - E.x a (b+1) (c+1)) / X.dh (a+1) +
  (E.y (a+1) (b+1) (c+1) - E.y (a+1) b (c+1)) / Y.dh (b+1) +
  (E.z (a+1) (b+1) (c+1) - E.z (a+1) (b+1) c) / Z.dh (c+1)

/-- `4 ( 1/mx^2 + 1/my^2 + 1/mz^2 )` bounds the curl: the norm of the curl plus the norm of the
divergence is the sum of the norms of all nine differences. -/
theorem curl_bound (E : V3) (hE : Walls px py pz E) :
    dotH X Y Z (curlE X Y Z E) (curlE X Y Z E) ≤
      4 * (1 / X.m^2 + 1 / Y.m^2 + 1 / Z.m^2) * dotI X Y Z E (inner E) := by
  -- cross terms
  have cx := cross px py pz X.dh E.z E.y (fun a b c h1 h2 h3 h => hE.z a b c h1 h2 h3 (by omega))
    (fun a b c h1 h2 h3 h => hE.y a b c h1 h2 h3 (by omega))
  have cy0 := cross py pz px Y.dh (fun b c a => E.x a b c) (fun b c a => E.z a b c)
    (fun b c a h1 h2 h3 h => hE.x a b c h3 h1 h2 (by omega)) (fun b c a h1 h2 h3 h => hE.z a b c h3 h1 h2 (by omega))
  have cz0 := cross pz px py Z.dh (fun c a b => E.y a b c) (fun c a b => E.x a b c)
    (fun c a b h1 h2 h3 h => hE.y a b c h2 h3 h1 (by omega)) (fun c a b h1 h2 h3 h => hE.x a b c h2 h3 h1 (by omega))
  have cy : sum3 (px+1) (py+2) (pz+1) (fun a b c => Y.dh b * ((E.x a b (c+1) - E.x a b c) * (E.z (a+1) b c - E.z a b c))) =
      sum3 px py pz (fun a b c => Y.dh (b+1) * ((E.z (a+1) (b+1) (c+1) - E.z (a+1) (b+1) c) *
        (E.x (a+1) (b+1) (c+1) - E.x a (b+1) (c+1)))) := by
    rw [rot, rot px py pz]; exact cy0
  have cz : sum3 (px+1) (py+1) (pz+2) (fun a b c => Z.dh c * ((E.y (a+1) b c - E.y a b c) * (E.x a (b+1) c - E.x a b c))) =
      sum3 px py pz (fun a b c => Z.dh (c+1) * ((E.x (a+1) (b+1) (c+1) - E.x a (b+1) (c+1)) *
        (E.y (a+1) (b+1) (c+1) - E.y (a+1) b (c+1)))) := by
    rw [rot, rot, rot px py pz, rot py pz px]; exact cz0
  clear cy0 cz0
  -- expansion of the squares
  have kx : sum3 (px+2) (py+1) (pz+1) (fun a b c => X.dh a * Y.de b * Z.de c * ((curlE X Y Z E).x a b c * (curlE X Y Z E).x a b c)) =
      sum3 (px+2) (py+1) (pz+1) (fun a b c => (X.dh a * Z.de c) * ((E.z a (b+1) c - E.z a b c)^2 / Y.de b)) +
      sum3 (px+2) (py+1) (pz+1) (fun a b c => (X.dh a * Y.de b) * ((E.y a b (c+1) - E.y a b c)^2 / Z.de c)) -
      2 * sum3 (px+2) (py+1) (pz+1) (fun a b c => X.dh a * ((E.z a (b+1) c - E.z a b c) * (E.y a b (c+1) - E.y a b c))) := by
    rw [← sum3_add, ← sum3_mul, ← sum3_sub]
    refine sum3_congr fun a b c ha hb hc => ?_
    have h1 := (Y.de_pos hb).ne'
    have h2 := (Z.de_pos hc).ne'
    simp only [curlE]; field_simp; ring
  have ky : sum3 (px+1) (py+2) (pz+1) (fun a b c => X.de a * Y.dh b * Z.de c * ((curlE X Y Z E).y a b c * (curlE X Y Z E).y a b c)) =
      sum3 (px+1) (py+2) (pz+1) (fun a b c => (X.de a * Y.dh b) * ((E.x a b (c+1) - E.x a b c)^2 / Z.de c)) +
      sum3 (px+1) (py+2) (pz+1) (fun a b c => (Y.dh b * Z.de c) * ((E.z (a+1) b c - E.z a b c)^2 / X.de a)) -
      2 * sum3 (px+1) (py+2) (pz+1) (fun a b c => Y.dh b * ((E.x a b (c+1) - E.x a b c) * (E.z (a+1) b c - E.z a b c))) := by
    rw [← sum3_add, ← sum3_mul, ← sum3_sub]
    refine sum3_congr fun a b c ha hb hc => ?_
    have h1 := (X.de_pos ha).ne'
    have h2 := (Z.de_pos hc).ne'
    simp only [curlE]; field_simp; ring
  have kz : sum3 (px+1) (py+1) (pz+2) (fun a b c => X.de a * Y.de b * Z.dh c * ((curlE X Y Z E).z a b c * (curlE X Y Z E).z a b c)) =
      sum3 (px+1) (py+1) (pz+2) (fun a b c => (Y.de b * Z.dh c) * ((E.y (a+1) b c - E.y a b c)^2 / X.de a)) +
      sum3 (px+1) (py+1) (pz+2) (fun a b c => (X.de a * Z.dh c) * ((E.x a (b+1) c - E.x a b c)^2 / Y.de b)) -
      2 * sum3 (px+1) (py+1) (pz+2) (fun a b c => Z.dh c * ((E.y (a+1) b c - E.y a b c) * (E.x a (b+1) c - E.x a b c))) := by
    rw [← sum3_add, ← sum3_mul, ← sum3_sub]
    refine sum3_congr fun a b c ha hb hc => ?_
    have h1 := (X.de_pos ha).ne'
    have h2 := (Y.de_pos hb).ne'
    simp only [curlE]; field_simp; ring
  have kd : sum3 px py pz (fun a b c => X.dh (a+1) * Y.dh (b+1) * Z.dh (c+1) * (divE X Y Z E a b c)^2) =
      sum3 px py pz (fun a b c => (Y.dh (b+1) * Z.dh (c+1)) * ((E.x (a+1) (b+1) (c+1) - E.x a (b+1) (c+1))^2 / X.dh (a+1))) +
      sum3 px py pz (fun a b c => (X.dh (a+1) * Z.dh (c+1)) * ((E.y (a+1) (b+1) (c+1) - E.y (a+1) b (c+1))^2 / Y.dh (b+1))) +
      sum3 px py pz (fun a b c => (X.dh (a+1) * Y.dh (b+1)) * ((E.z (a+1) (b+1) (c+1) - E.z (a+1) (b+1) c)^2 / Z.dh (c+1))) +
      2 * (sum3 px py pz (fun a b c => X.dh (a+1) * ((E.y (a+1) (b+1) (c+1) - E.y (a+1) b (c+1)) *
            (E.z (a+1) (b+1) (c+1) - E.z (a+1) (b+1) c))) +
          sum3 px py pz (fun a b c => Y.dh (b+1) * ((E.z (a+1) (b+1) (c+1) - E.z (a+1) (b+1) c) *
        (E.x (a+1) (b+1) (c+1) - E.x a (b+1) (c+1)))) +
          sum3 px py pz (fun a b c => Z.dh (c+1) * ((E.x (a+1) (b+1) (c+1) - E.x a (b+1) (c+1)) *
        (E.y (a+1) (b+1) (c+1) - E.y (a+1) b (c+1))))) := by
    rw [← sum3_add, ← sum3_add, ← sum3_add, ← sum3_add, ← sum3_mul, ← sum3_add]
    refine sum3_congr fun a b c ha hb hc => ?_
    have h1 := (X.dh_pos (a+1) (by omega)).ne'
    have h2 := (Y.dh_pos (b+1) (by omega)).ne'
    have h3 := (Z.dh_pos (c+1) (by omega)).ne'
    simp only [divE]; field_simp; ring
  have kd0 : 0 ≤ sum3 px py pz (fun a b c => X.dh (a+1) * Y.dh (b+1) * Z.dh (c+1) * (divE X Y Z E a b c)^2) :=
    sum3_nonneg fun a b c ha hb hc => by
      have h1 := X.dh_pos (a+1) (by omega)
      have h2 := Y.dh_pos (b+1) (by omega)
      have h3 := Z.dh_pos (c+1) (by omega)
      positivity
  -- interior norms
  set Ix := sum3 (px+1) py pz (fun a b c => X.de a * Y.dh (b+1) * Z.dh (c+1) * (E.x a (b+1) (c+1) * E.x a (b+1) (c+1))) with hIx
  set Iy := sum3 px (py+1) pz (fun a b c => X.dh (a+1) * Y.de b * Z.dh (c+1) * (E.y (a+1) b (c+1) * E.y (a+1) b (c+1))) with hIy
  set Iz := sum3 px py (pz+1) (fun a b c => X.dh (a+1) * Y.dh (b+1) * Z.de c * (E.z (a+1) (b+1) c * E.z (a+1) (b+1) c)) with hIz
  -- nine difference bounds
  have zy : sum3 (px+2) (py+1) (pz+1) (fun a b c => (X.dh a * Z.de c) * ((E.z a (b+1) c - E.z a b c)^2 / Y.de b)) ≤ 4 / Y.m^2 * Iz := by
    refine (primB Y (px+2) (pz+1) E.z (fun a c => X.dh a * Z.de c)
      (fun a c h1 h2 => mul_nonneg (X.dh_pos a h1).le (Z.de_pos h2).le)
      (fun a c h1 h2 => hE.z a 0 c h1 (by omega) h2 (by omega))
      (fun a c h1 h2 => hE.z a (py+1) c h1 (by omega) h2 (by omega))).trans (le_of_eq ?_)
    rw [intA, hIz]
    · congr 1; exact sum3_congr fun a b c _ _ _ => by ring
    · intro b c hb hc; rw [hE.z 0 (b+1) c (by omega) (by omega) (by omega) (by omega)]; ring
    · intro b c hb hc; rw [hE.z (px+1) (b+1) c (by omega) (by omega) (by omega) (by omega)]; ring
  have zx : sum3 (px+1) (py+2) (pz+1) (fun a b c => (Y.dh b * Z.de c) * ((E.z (a+1) b c - E.z a b c)^2 / X.de a)) ≤ 4 / X.m^2 * Iz := by
    refine (primA X (py+2) (pz+1) E.z (fun b c => Y.dh b * Z.de c)
      (fun a c h1 h2 => mul_nonneg (Y.dh_pos a h1).le (Z.de_pos h2).le)
      (fun b c h1 h2 => hE.z 0 b c (by omega) h1 h2 (by omega))
      (fun b c h1 h2 => hE.z (px+1) b c (by omega) h1 h2 (by omega))).trans (le_of_eq ?_)
    rw [intB, hIz]
    · congr 1; exact sum3_congr fun a b c _ _ _ => by ring
    · intro a c hb hc; rw [hE.z (a+1) 0 c (by omega) (by omega) (by omega) (by omega)]; ring
    · intro a c hb hc; rw [hE.z (a+1) (py+1) c (by omega) (by omega) (by omega) (by omega)]; ring
  have zz : sum3 px py pz (fun a b c => (X.dh (a+1) * Y.dh (b+1)) * ((E.z (a+1) (b+1) (c+1) - E.z (a+1) (b+1) c)^2 / Z.dh (c+1))) ≤ 4 / Z.m^2 * Iz := by
    refine (dualC Z px py (fun a b c => E.z (a+1) (b+1) c) (fun a b => X.dh (a+1) * Y.dh (b+1))
      (fun a b h1 h2 => mul_nonneg (X.dh_pos (a+1) (by omega)).le (Y.dh_pos (b+1) (by omega)).le)).trans (le_of_eq ?_)
    rw [hIz]; congr 1; exact sum3_congr fun a b c _ _ _ => by ring
  have yz : sum3 (px+2) (py+1) (pz+1) (fun a b c => (X.dh a * Y.de b) * ((E.y a b (c+1) - E.y a b c)^2 / Z.de c)) ≤ 4 / Z.m^2 * Iy := by
    refine (primC Z (px+2) (py+1) E.y (fun a b => X.dh a * Y.de b)
      (fun a b h1 h2 => mul_nonneg (X.dh_pos a h1).le (Y.de_pos h2).le)
      (fun a b h1 h2 => hE.y a b 0 h1 h2 (by omega) (by omega))
      (fun a b h1 h2 => hE.y a b (pz+1) h1 h2 (by omega) (by omega))).trans (le_of_eq ?_)
    rw [intA, hIy]
    · congr 1; exact sum3_congr fun a b c _ _ _ => by ring
    · intro b c hb hc; rw [hE.y 0 b (c+1) (by omega) (by omega) (by omega) (by omega)]; ring
    · intro b c hb hc; rw [hE.y (px+1) b (c+1) (by omega) (by omega) (by omega) (by omega)]; ring
  have yx : sum3 (px+1) (py+1) (pz+2) (fun a b c => (Y.de b * Z.dh c) * ((E.y (a+1) b c - E.y a b c)^2 / X.de a)) ≤ 4 / X.m^2 * Iy := by
    refine (primA X (py+1) (pz+2) E.y (fun b c => Y.de b * Z.dh c)
      (fun b c h1 h2 => mul_nonneg (Y.de_pos h1).le (Z.dh_pos c h2).le)
      (fun b c h1 h2 => hE.y 0 b c (by omega) h1 h2 (by omega))
      (fun b c h1 h2 => hE.y (px+1) b c (by omega) h1 h2 (by omega))).trans (le_of_eq ?_)
    rw [intC, hIy]
    · congr 1; exact sum3_congr fun a b c _ _ _ => by ring
    · intro a b hb hc; rw [hE.y (a+1) b 0 (by omega) (by omega) (by omega) (by omega)]; ring
    · intro a b hb hc; rw [hE.y (a+1) b (pz+1) (by omega) (by omega) (by omega) (by omega)]; ring
  have yy : sum3 px py pz (fun a b c => (X.dh (a+1) * Z.dh (c+1)) * ((E.y (a+1) (b+1) (c+1) - E.y (a+1) b (c+1))^2 / Y.dh (b+1))) ≤ 4 / Y.m^2 * Iy := by
    refine (dualB Y px pz (fun a b c => E.y (a+1) b (c+1)) (fun a c => X.dh (a+1) * Z.dh (c+1))
      (fun a b h1 h2 => mul_nonneg (X.dh_pos (a+1) (by omega)).le (Z.dh_pos (b+1) (by omega)).le)).trans (le_of_eq ?_)
    rw [hIy]; congr 1; exact sum3_congr fun a b c _ _ _ => by ring
  have xz : sum3 (px+1) (py+2) (pz+1) (fun a b c => (X.de a * Y.dh b) * ((E.x a b (c+1) - E.x a b c)^2 / Z.de c)) ≤ 4 / Z.m^2 * Ix := by
    refine (primC Z (px+1) (py+2) E.x (fun a b => X.de a * Y.dh b)
      (fun a b h1 h2 => mul_nonneg (X.de_pos h1).le (Y.dh_pos b h2).le)
      (fun a b h1 h2 => hE.x a b 0 h1 h2 (by omega) (by omega))
      (fun a b h1 h2 => hE.x a b (pz+1) h1 h2 (by omega) (by omega))).trans (le_of_eq ?_)
    rw [intB, hIx]
    · congr 1; exact sum3_congr fun a b c _ _ _ => by ring
    · intro a c hb hc; rw [hE.x a 0 (c+1) (by omega) (by omega) (by omega) (by omega)]; ring
    · intro a c hb hc; rw [hE.x a (py+1) (c+1) (by omega) (by omega) (by omega) (by omega)]; ring
  have xy : sum3 (px+1) (py+1) (pz+2) (fun a b c => (X.de a * Z.dh c) * ((E.x a (b+1) c - E.x a b c)^2 / Y.de b)) ≤ 4 / Y.m^2 * Ix := by
    refine (primB Y (px+1) (pz+2) E.x (fun a c => X.de a * Z.dh c)
      (fun a c h1 h2 => mul_nonneg (X.de_pos h1).le (Z.dh_pos c h2).le)
      (fun a c h1 h2 => hE.x a 0 c h1 (by omega) h2 (by omega))
      (fun a c h1 h2 => hE.x a (py+1) c h1 (by omega) h2 (by omega))).trans (le_of_eq ?_)
    rw [intC, hIx]
    · congr 1; exact sum3_congr fun a b c _ _ _ => by ring
    · intro a b hb hc; rw [hE.x a (b+1) 0 (by omega) (by omega) (by omega) (by omega)]; ring
    · intro a b hb hc; rw [hE.x a (b+1) (pz+1) (by omega) (by omega) (by omega) (by omega)]; ring
  have xx : sum3 px py pz (fun a b c => (Y.dh (b+1) * Z.dh (c+1)) * ((E.x (a+1) (b+1) (c+1) - E.x a (b+1) (c+1))^2 / X.dh (a+1))) ≤ 4 / X.m^2 * Ix := by
    refine (dualA X py pz (fun a b c => E.x a (b+1) (c+1)) (fun b c => Y.dh (b+1) * Z.dh (c+1))
      (fun a b h1 h2 => mul_nonneg (Y.dh_pos (a+1) (by omega)).le (Z.dh_pos (b+1) (by omega)).le)).trans (le_of_eq ?_)
    rw [hIx]; congr 1; exact sum3_congr fun a b c _ _ _ => by ring
  have hI : dotI X Y Z E (inner E) = Ix + Iy + Iz := rfl
  rw [hI]
  unfold dotH
  rw [kx, ky, kz, cx, cy, cz]
  have : 4 * (1 / X.m^2 + 1 / Y.m^2 + 1 / Z.m^2) * (Ix + Iy + Iz) =
      (4 / X.m^2 * Ix + 4 / Y.m^2 * Ix + 4 / Z.m^2 * Ix) + (4 / X.m^2 * Iy + 4 / Y.m^2 * Iy + 4 / Z.m^2 * Iy) +
      (4 / X.m^2 * Iz + 4 / Y.m^2 * Iz + 4 / Z.m^2 * Iz) := by ring
  rw [this]
  linarith

end

end Vulture.Energy
