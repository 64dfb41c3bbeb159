import Verif.Angles.Spec

namespace TQ
namespace FG
open MS FGSpec EuclideanGeometry Real

theorem emb_sub (p q : Pt ℝ) : emb q -ᵥ emb p = !₂[q.x - p.x, q.y - p.y] := by
  ext i
  fin_cases i <;> simp [emb, vsub_eq_sub]

theorem norm_emb (p q : Pt ℝ) : ‖emb q -ᵥ emb p‖ = len p q := by
  rw [emb_sub, EuclideanSpace.norm_eq]
  simp [len, Pt.normSq, Fin.sum_univ_two, sq]

theorem inner_emb (a b c d : Pt ℝ) : inner ℝ (emb b -ᵥ emb a) (emb d -ᵥ emb c) = Pt.dot (b - a) (d - c) := by
  rw [emb_sub, emb_sub]
  simp [Pt.dot, PiLp.inner_apply, Fin.sum_univ_two]
  ring

theorem ang_eq (a b c : Pt ℝ) : ang a b c = Real.arccos (Pt.dot (a - b) (c - b) / (len b a * len b c)) := by
  unfold ang EuclideanGeometry.angle InnerProductGeometry.angle
  rw [norm_emb, norm_emb, inner_emb]

theorem len_comm (p q : Pt ℝ) : len p q = len q p := by
  unfold len Pt.normSq
  simp only [Pt.sub_x, Pt.sub_y]
  congr 1
  ring

theorem ang_comm (a b c : Pt ℝ) : ang a b c = ang c b a := EuclideanGeometry.angle_comm _ _ _

theorem triAngles_eq (p q r : Pt ℝ) :
    triAngles p q r (len p q) (len q r) (len r p) = [ang q p r, ang p q r, ang p r q] := by
  unfold triAngles
  rw [ang_eq, ang_eq, ang_eq, len_comm r p, len_comm q p, len_comm r q, mul_comm (len p r) (len q r)]

theorem quadAngles_eq (p q r s : Pt ℝ) :
    quadAngles p q r s (len p q) (len q r) (len r s) (len s p) = [ang q p s, ang p q r, ang s r q, ang r s p] := by
  unfold quadAngles
  rw [ang_eq, ang_eq, ang_eq, ang_eq, len_comm s p, len_comm q p, len_comm r q, len_comm s r,
    mul_comm (len p s) (len p q), mul_comm (len r s) (len q r)]

theorem emb_inj {p q : Pt ℝ} (h : emb p = emb q) : p = q := by
  have h0 := congrArg (fun v : EuclideanSpace ℝ (Fin 2) => v 0) h
  have h1 := congrArg (fun v : EuclideanSpace ℝ (Fin 2) => v 1) h
  simp [emb] at h0 h1
  exact Pt.ext' h0 h1

theorem tri_sum {p q : Pt ℝ} (r : Pt ℝ) (h : q ≠ p) : ang p q r + ang q r p + ang r p q = π :=
  angle_add_angle_add_angle_eq_pi _ (fun e => h (emb_inj e))

/-- The point at parameter `t` on the line through `a` and `b`. -/
theorem emb_line (a b x : Pt ℝ) (t : ℝ) (hx : x = ⟨a.x + t * (b.x - a.x), a.y + t * (b.y - a.y)⟩) :
    emb x = AffineMap.lineMap (emb a) (emb b) t := by
  subst hx
  rw [AffineMap.lineMap_apply]
  ext i
  fin_cases i <;> simp [emb, vsub_eq_sub] <;> ring

theorem sbtw_line {a b x : Pt ℝ} {t : ℝ} (hx : x = ⟨a.x + t * (b.x - a.x), a.y + t * (b.y - a.y)⟩)
    (hab : a ≠ b) (h0 : 0 < t) (h1 : t < 1) : Sbtw ℝ (emb a) (emb x) (emb b) := by
  rw [emb_line a b x t hx]
  exact (sbtw_lineMap_iff).mpr ⟨fun e => hab (emb_inj e), h0, h1⟩

/-- Angles at a corner add up along a point strictly between the two ends. -/
theorem ang_add {a c x : Pt ℝ} (p : Pt ℝ) {t : ℝ} (hx : x = ⟨a.x + t * (c.x - a.x), a.y + t * (c.y - a.y)⟩)
    (hac : a ≠ c) (h0 : 0 < t) (h1 : t < 1) : ang a p x + ang x p c = ang a p c :=
  angle_add_angle_eq_of_sbtw (sbtw_line hx hac h0 h1)

/-- Angles do not depend on the length of the second leg. -/
theorem ang_ray {a p b x : Pt ℝ} {t : ℝ} (hx : x = ⟨p.x + t * (b.x - p.x), p.y + t * (b.y - p.y)⟩) (h0 : 0 < t) :
    ang a p x = ang a p b := by
  unfold ang EuclideanGeometry.angle
  have : emb x -ᵥ emb p = t • (emb b -ᵥ emb p) := by
    rw [emb_line p b x t hx, AffineMap.lineMap_apply]
    simp
  rw [this]
  exact InnerProductGeometry.angle_smul_right_of_pos _ _ h0

/-- The opposite ray. -/
theorem ang_back {a p b x : Pt ℝ} {t : ℝ} (hx : x = ⟨p.x + t * (b.x - p.x), p.y + t * (b.y - p.y)⟩) (h0 : t < 0) :
    ang a p x = π - ang a p b := by
  unfold ang EuclideanGeometry.angle
  have : emb x -ᵥ emb p = t • (emb b -ᵥ emb p) := by
    rw [emb_line p b x t hx, AffineMap.lineMap_apply]
    simp
  rw [this, InnerProductGeometry.angle_smul_right_of_neg _ _ h0, InnerProductGeometry.angle_neg_right]

end FG
end TQ
