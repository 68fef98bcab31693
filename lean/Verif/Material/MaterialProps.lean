import Verif.Material.Material
import Verif.Tensor.PolarProps
import Verif.Element.HexForces

/-!
# C30, C31: constitutive laws
-/

set_option linter.unusedSectionVars false
set_option linter.unusedSimpArgs false

namespace NimbleSM.Constitutive

open Matrix NimbleSM.Tensor
open NimbleSM.Hex (put)

variable {K : Type*} [Field K] [LinearOrder K] [IsStrictOrderedRing K]

/-! ## Specification -/

/-- Infinitesimal strain of the deformation gradient `F`. -/
def smallStrain (F : Matrix (Fin 3) (Fin 3) K) : Matrix (Fin 3) (Fin 3) K :=
  (1 / 2 : K) • (F + Fᵀ) - 1

/-- Isotropic linear elasticity with bulk modulus `k` and shear modulus `g`. -/
def hooke (k g : K) (ε : Matrix (Fin 3) (Fin 3) K) : Matrix (Fin 3) (Fin 3) K :=
  (2 * g) • ε + ((k - 2 * g / 3) * ε.trace) • 1

/-- Deviatoric part. -/
def dev (A : Matrix (Fin 3) (Fin 3) K) : Matrix (Fin 3) (Fin 3) K := A - (A.trace / 3) • 1

/-- Compressible neo-Hookean law. -/
noncomputable def neoHooke (k g : ℝ) (F : Matrix (Fin 3) (Fin 3) ℝ) : Matrix (Fin 3) (Fin 3) ℝ :=
  (k / 2 * (F.det - 1 / F.det)) • 1 +
    (g / F.det) • dev ((F.det ^ (-(2 : ℝ) / 3)) • (F * Fᵀ))

/-! ## C30: elastic material -/

/-- **C30.**  The elastic stress is Hooke's law of the infinitesimal strain. -/
theorem elastic_stress_spec (m : Material K) (F : Fin 9 → K) :
    symMat (elasticStress m F) = hooke m.bulk m.shear (smallStrain (fullMat F)) := by
  ext i j
  fin_cases i <;> fin_cases j <;>
    simp [symMat, elasticStress, store6, hooke, smallStrain, fullMat, Matrix.trace,
      Fin.sum_univ_three, K_S_XX, K_S_YY, K_S_ZZ, K_S_XY, K_S_YZ, K_S_ZX, K_F_XX, K_F_YY, K_F_ZZ,
      K_F_XY, K_F_YX, K_F_YZ, K_F_ZY, K_F_ZX, K_F_XZ, -mul_eq_mul_left_iff] <;> ring

theorem smallStrain_one : smallStrain (1 : Matrix (Fin 3) (Fin 3) K) = 0 := by
  ext i j
  by_cases h : i = j
  · subst h; simp [smallStrain]; norm_num
  · simp [smallStrain, h, Matrix.one_apply_ne h, Matrix.one_apply_ne (Ne.symm h)]

theorem symMat_injective : Function.Injective (symMat (K := K)) := by
  intro a b h
  funext i
  have h' := fun r c => congrFun (congrFun h r) c
  fin_cases i
  · exact h' 0 0
  · exact h' 1 1
  · exact h' 2 2
  · exact h' 0 1
  · exact h' 1 2
  · exact h' 2 0

/-- **C30.**  No stress in the reference state. -/
theorem elastic_stress_reference (m : Material K) (F : Fin 9 → K) (hF : fullMat F = 1) :
    elasticStress m F = fun _ => 0 := by
  apply symMat_injective
  rw [elastic_stress_spec, hF, smallStrain_one]
  ext i j
  fin_cases i <;> fin_cases j <;> simp [hooke, symMat]

/-- **C30.**  The elastic stress is isotropic: rotating reference and current configuration
rotates the stress. -/
theorem elastic_stress_isotropic (m : Material K) (F F' : Fin 9 → K)
    (Q : Matrix (Fin 3) (Fin 3) K) (hQ : Q * Qᵀ = 1) (hF' : fullMat F' = Q * fullMat F * Qᵀ) :
    symMat (elasticStress m F') = Q * symMat (elasticStress m F) * Qᵀ := by
  have hQ' : Qᵀ * Q = 1 := mul_eq_one_comm.mp hQ
  rw [elastic_stress_spec, elastic_stress_spec, hF']
  have h1 : smallStrain (Q * fullMat F * Qᵀ) = Q * smallStrain (fullMat F) * Qᵀ := by
    simp only [smallStrain, Matrix.transpose_mul, Matrix.transpose_transpose]
    rw [Matrix.mul_sub, Matrix.sub_mul, Matrix.mul_one, hQ, Matrix.mul_smul, Matrix.smul_mul,
      Matrix.mul_add, Matrix.add_mul]
    simp only [Matrix.mul_assoc]
  rw [h1]
  have h2 : (Q * smallStrain (fullMat F) * Qᵀ).trace = (smallStrain (fullMat F)).trace := by
    rw [Matrix.trace_mul_comm, ← Matrix.mul_assoc, hQ', Matrix.one_mul]
  simp only [hooke, h2]
  rw [Matrix.mul_add, Matrix.add_mul, Matrix.mul_smul, Matrix.smul_mul, Matrix.mul_smul,
    Matrix.smul_mul, Matrix.mul_one, hQ]

/-- **C30.**  The elastic stress depends linearly on the displacement gradient `F - 1`. -/
theorem elastic_stress_linear (m : Material K) (F F₁ F₂ : Fin 9 → K) (a b : K)
    (h : fullMat F - 1 = a • (fullMat F₁ - 1) + b • (fullMat F₂ - 1)) :
    symMat (elasticStress m F) = a • symMat (elasticStress m F₁) + b • symMat (elasticStress m F₂) := by
  have hs : smallStrain (fullMat F) = a • smallStrain (fullMat F₁) + b • smallStrain (fullMat F₂) := by
    have e : ∀ A : Matrix (Fin 3) (Fin 3) K, smallStrain A = (1 / 2 : K) • ((A - 1) + (A - 1)ᵀ) := by
      intro A
      ext i j
      simp [smallStrain, Matrix.one_apply, eq_comm]
      split_ifs <;> ring
    rw [e, e, e, h]
    ext i j
    simp; ring
  simp only [elastic_stress_spec, hs, hooke, Matrix.trace_add, Matrix.trace_smul]
  ext i j
  simp; ring

/-- The elastic law is not objective (and does not claim to be): a rigid rotation by 90 degrees
produces stress. -/
theorem elastic_stress_not_objective :
    ∃ (m : Material ℚ) (F : Fin 9 → ℚ), (fullMat F)ᵀ * fullMat F = 1 ∧ (fullMat F).det = 1 ∧
      elasticStress m F ≠ fun _ => 0 := by
  refine ⟨⟨1, 1, 1⟩, ![0, 0, 1, -1, 0, 0, 1, 0, 0], ?_, ?_, ?_⟩
  · ext i j; fin_cases i <;> fin_cases j <;> simp [fullMat, Matrix.mul_apply, Fin.sum_univ_three]
  · simp [fullMat, Matrix.det_fin_three]
  · intro h
    have := congrFun h 0
    revert this
    decide +kernel

/-! ## Tangent -/

theorem put_block {n : ℕ} (v : ℕ → K) : ∀ (base : ℕ) (out : ℕ → K) (i : ℕ),
    ((List.range n).foldl (fun out k => put out (base + k) (v k)) out) i
      = if base ≤ i ∧ i < base + n then v (i - base) else out i := by
  induction n with
  | zero => intro base out i; simp
  | succ n ih =>
    intro base out i
    rw [List.range_succ, List.foldl_append, List.foldl_cons, List.foldl_nil, put, ih]
    by_cases h : i = base + n
    · subst h; simp
    · rw [if_neg h]
      by_cases h2 : base ≤ i ∧ i < base + n
      · rw [if_pos h2, if_pos (by omega)]
      · rw [if_neg h2, if_neg (by omega)]

/-- `GetTangent` writes the same 6×6 block for every integration point. -/
theorem getTangent_val (m : Material K) (num_pts : ℕ) (out : ℕ → K) (i : ℕ) :
    getTangent m num_pts out i
      = if i < 36 * num_pts then tangentEntry m (i % 36) else out i := by
  unfold getTangent
  induction num_pts with
  | zero => simp
  | succ n ih =>
    rw [List.range_succ (n := n), List.foldl_append, List.foldl_cons, List.foldl_nil, put_block, ih]
    by_cases h : n * 36 ≤ i ∧ i < n * 36 + 36
    · rw [if_pos h, if_pos (by omega)]
      congr 1; omega
    · rw [if_neg h]
      by_cases h2 : i < 36 * n
      · rw [if_pos h2, if_pos (by omega)]
      · rw [if_neg h2, if_neg (by omega)]

/-- The tangent relates stress to strain in Voigt form with engineering shear strains: it is the
derivative of the elastic stress. -/
theorem elastic_tangent_spec (m : Material K) (num_pts : ℕ) (out : ℕ → K) (p : ℕ) (hp : p < num_pts)
    (F : Fin 9 → K) (k : Fin 6) :
    let G := fullMat F - 1
    elasticStress m F k = ∑ l : Fin 6, getTangent m num_pts out (36 * p + 6 * k + l) *
      (![G 0 0, G 1 1, G 2 2, G 0 1 + G 1 0, G 1 2 + G 2 1, G 2 0 + G 0 2] : Fin 6 → K) l := by
  intro G
  have hv : ∀ l : Fin 6, getTangent m num_pts out (36 * p + 6 * k + l)
      = tangentEntry m (6 * k + l) := fun l => by
    have := k.isLt; have := l.isLt
    rw [getTangent_val, if_pos (by omega)]
    congr 1; omega
  simp only [hv, Fin.sum_univ_six]
  fin_cases k <;>
    simp [G, tangentEntry, elasticStress, store6, fullMat, K_S_XX, K_S_YY, K_S_ZZ, K_S_XY, K_S_YZ,
      K_S_ZX, K_F_XX, K_F_YY, K_F_ZZ, K_F_XY, K_F_YX, K_F_YZ, K_F_ZY, K_F_ZX, K_F_XZ] <;> ring

/-- The tangent is symmetric. -/
theorem tangent_symm (m : Material K) (num_pts : ℕ) (out : ℕ → K) (p : ℕ) (hp : p < num_pts)
    (k l : Fin 6) : getTangent m num_pts out (36 * p + 6 * k + l)
      = getTangent m num_pts out (36 * p + 6 * l + k) := by
  have := k.isLt; have := l.isLt
  rw [getTangent_val, getTangent_val, if_pos (by omega), if_pos (by omega)]
  have e1 : (36 * p + 6 * k + l) % 36 = 6 * k + l := by omega
  have e2 : (36 * p + 6 * l + k) % 36 = 6 * l + k := by omega
  rw [e1, e2]
  fin_cases k <;> fin_cases l <;> rfl

/-- For nonnegative moduli the tangent is positive semidefinite. -/
theorem tangent_psd (m : Material K) (hk : 0 ≤ m.bulk) (hg : 0 ≤ m.shear) (num_pts : ℕ)
    (out : ℕ → K) (p : ℕ) (hp : p < num_pts) (ε : Fin 6 → K) :
    0 ≤ ∑ k : Fin 6, ∑ l : Fin 6, ε k * getTangent m num_pts out (36 * p + 6 * k + l) * ε l := by
  have hv : ∀ k l : Fin 6, getTangent m num_pts out (36 * p + 6 * k + l)
      = tangentEntry m (6 * k + l) := fun k l => by
    have := k.isLt; have := l.isLt
    rw [getTangent_val, if_pos (by omega)]
    congr 1; omega
  simp only [hv, Fin.sum_univ_six]
  simp [tangentEntry]
  have e : ∀ a b c d e f : K, m.bulk * (a + b + c) ^ 2 + m.shear * (2 / 3) * ((a - b) ^ 2 + (b - c) ^ 2
      + (c - a) ^ 2) + m.shear * (d ^ 2 + e ^ 2 + f ^ 2)
      = a * (m.bulk - 2 * m.shear / 3 + 2 * m.shear) * a + a * (m.bulk - 2 * m.shear / 3) * b
        + a * (m.bulk - 2 * m.shear / 3) * c
        + (b * (m.bulk - 2 * m.shear / 3) * a + b * (m.bulk - 2 * m.shear / 3 + 2 * m.shear) * b
        + b * (m.bulk - 2 * m.shear / 3) * c)
        + (c * (m.bulk - 2 * m.shear / 3) * a + c * (m.bulk - 2 * m.shear / 3) * b
        + c * (m.bulk - 2 * m.shear / 3 + 2 * m.shear) * c)
        + d * m.shear * d + e * m.shear * e + f * m.shear * f := by
    intro a b c d e f; ring
  rw [← e]
  positivity

/-- **C27 with C30.**  The element tangent assembled from either material's tangent is symmetric and
positive semidefinite for nonnegative moduli: stable stiffness for every element geometry. -/
theorem element_tangent_symm_psd (m : Material K) (hk : 0 ≤ m.bulk) (hg : 0 ≤ m.shear) (val : K)
    (x out : ℕ → K) (T : ℕ → ℕ → K)
    (h : Hex.computeTangent val x (getTangent m 8 out) = some T) :
    (∀ i j, i < 24 → j < 24 → T i j = T j i) ∧
    ∀ u : ℕ → K, 0 ≤ ∑ n : Fin 8, ∑ d : Fin 3, ∑ m : Fin 8, ∑ e : Fin 3,
      u (3 * n + d) * T (3 * n + d) (3 * m + e) * u (3 * m + e) :=
  ⟨fun i j hi hj => Hex.tangent_symmetric val x _ T
      (fun p k l => tangent_symm m 8 out p p.isLt k l) h i j hi hj,
    Hex.tangent_energy_nonneg val x _ T h (fun p ε => tangent_psd m hk hg 8 out p p.isLt ε)⟩

/-! ## C31: loops and histories -/

/-- The loop over integration points applies the law point by point. -/
theorem pointLoop_val (law : (Fin 9 → K) → Option (Fin 6 → K)) (n : ℕ) (F out res : ℕ → K)
    (h : pointLoop law n F out = some res) :
    (∀ p, p < n → ∃ sig, law (fun i => F (9 * p + i.val)) = some sig ∧
      ∀ c : Fin 6, res (6 * p + c) = sig c) ∧ ∀ i, 6 * n ≤ i → res i = out i := by
  unfold pointLoop at h
  induction n generalizing res with
  | zero => simp at h; subst h; simp
  | succ n ih =>
    rw [List.range_succ, List.foldlM_append] at h
    cases h1 : List.foldlM (fun (out : ℕ → K) pt =>
      (law fun i => F (9 * pt + i.val)).map fun sig =>
        (List.finRange 6).foldl (fun out c => put out (6 * pt + c.val) (sig c)) out) out
        (List.range n) with
    | none => rw [h1] at h; simp at h
    | some mid =>
      rw [h1] at h
      obtain ⟨ih1, ih2⟩ := ih mid h1
      simp only [List.foldlM_cons, List.foldlM_nil, Option.bind_eq_bind, Option.bind_some,
        Option.pure_def, Option.bind_fun_some] at h
      cases h2 : law fun i => F (9 * n + i.val) with
      | none => rw [h2] at h; simp at h
      | some sig =>
        rw [h2] at h
        simp only [Option.map_some, Option.some.injEq] at h
        have hfin : ∀ i, res i = if 6 * n ≤ i ∧ i < 6 * n + 6 then
            (if hh : i - 6 * n < 6 then sig ⟨i - 6 * n, hh⟩ else 0) else mid i := by
          intro i
          rw [← h]
          have := put_block (n := 6) (fun k => if hh : k < 6 then sig ⟨k, hh⟩ else 0) (6 * n) mid i
          rw [← this]
          rfl
        refine ⟨?_, ?_⟩
        · intro p hp
          by_cases hpn : p = n
          · subst hpn
            refine ⟨sig, h2, ?_⟩
            intro c
            have := c.isLt
            rw [hfin, if_pos (by omega), dif_pos (by omega)]
            congr 1
            apply Fin.ext; simp
          · obtain ⟨s, hs1, hs2⟩ := ih1 p (by omega)
            refine ⟨s, hs1, ?_⟩
            intro c
            have := c.isLt
            rw [hfin, if_neg (by omega), hs2]
        · intro i hi
          rw [hfin, if_neg (by omega), ih2 i (by omega)]

/-- **C31.**  An off-nominal evaluation returns what a material constructed with those moduli would
return, and leaves the object as it was. -/
theorem offNominal_spec (law : Material K → (Fin 9 → K) → Option (Fin 6 → K)) (m : Material K)
    (k g : K) (n : ℕ) (F out : ℕ → K) :
    getOffNominalStress law m k g n F out
      = (getStress law ⟨m.density, k, g⟩ n F out).map fun r => (m, r) := by
  rfl

/-- What a call returns when every call is made on its own, freshly constructed object. -/
def fresh (law : Material K → (Fin 9 → K) → Option (Fin 6 → K)) (m : Material K) :
    Call K → Option (ℕ → K)
  | .stress n F s => getStress law m n F s
  | .offNominal k g n F s => getStress law ⟨m.density, k, g⟩ n F s

/-- **C31.**  For every sequence of nominal and off-nominal calls on one object: the object is
unchanged at the end, and the array written by each call is the one a freshly constructed material
with the respective moduli writes. -/
theorem history_spec (law : Material K → (Fin 9 → K) → Option (Fin 6 → K)) (m : Material K)
    (cs : List (Call K)) :
    history law m cs = (cs.mapM (fresh law m)).map fun rs => (m, rs) := by
  induction cs with
  | nil => rfl
  | cons c cs ih =>
    rw [history, List.mapM_cons]
    cases c with
    | stress n F s =>
      simp only [call, fresh]
      cases getStress law m n F s with
      | none => rfl
      | some r =>
        simp only [Option.map_some, Option.bind_eq_bind, Option.bind_some, ih, Option.pure_def]
        cases cs.mapM (fresh law m) <;> rfl
    | offNominal k g n F s =>
      simp only [call, fresh, offNominal_spec]
      cases getStress law ⟨m.density, k, g⟩ n F s with
      | none => rfl
      | some r =>
        simp only [Option.map_some, Option.bind_eq_bind, Option.bind_some, ih, Option.pure_def]
        cases cs.mapM (fresh law m) <;> rfl

/-- Non-vacuity: a history of three calls on an elastic object; the third, nominal, call returns the
same as the first although the second used other moduli. -/
example : ∃ r₁ r₂ r₃ : ℕ → ℚ, ∃ m', history (fun m F => some (elasticStress m F))
      (⟨1, 3, 3⟩ : Material ℚ)
      [.stress 1 (fun i => i) (fun _ => 0), .offNominal 6 6 1 (fun i => i) (fun _ => 0),
        .stress 1 (fun i => i) (fun _ => 0)] = some (m', [r₁, r₂, r₃]) ∧
      r₁ 0 = r₃ 0 ∧ r₁ 0 ≠ r₂ 0 ∧ m'.bulk = 3 := by
  refine ⟨_, _, _, _, rfl, ?_⟩
  decide +kernel

end NimbleSM.Constitutive
