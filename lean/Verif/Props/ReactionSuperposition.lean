import Verif.Props.DiffusionAdvectionReaction
import Verif.Props.DiffusionSuperposition
import Verif.Spec.ReactionSuperposition

/-!
# Property C117: superposition for diffusion, advection and reaction
-/

namespace HyperHDG.DAR

open Finset Matrix
open Spec hiding IsSolution Solvable solution_lin solution_unique flux_test primal_test
open Spec.DAR
open Diffusion (form IsDirichlet dirichletMoments source offDirichlet)
open EllipticProgram (Superposed)
open HyGraph (Elliptic)

variable {dim nS nB : Nat} {K : Type} [Field K]

theorem coeffs_same {E E' : Edge dim nS K} {time : K} (h : SameOperator E E' nB time) : coeffs E' 0 time = coeffs E 0 time := by
  have h1 : (coeffs E' 0 time).advect = (coeffs E 0 time).advect := by
    funext d
    ext i j
    exact h.velocity i j d
  have h2 : (coeffs E' 0 time).react = (coeffs E 0 time).react := by
    ext i j
    exact h.reaction i j
  show Coeffs.mk (coeffs E' 0 time).advect (coeffs E' 0 time).react = _
  rw [h1, h2]

/-- Without Dirichlet indices the residual is assembled as it is. -/
theorem apply_assemble (m : Mode) (G : HyGraph dim nB) (nodes : Fin G.n_hyEdges → Fin (2 * dim) → Fin G.n_hyNodes) (hwf : G.WF nodes) (loc : HyGraph.LocalFun dim nB K)
    (x : Fin (G.n_hyNodes * nB) → K) (z : Fin G.n_hyEdges → LocDofs dim nB K) (hz : ∀ e : Fin G.n_hyEdges, loc e (faceValues nodes x e) (fun _ _ => 0) = .ok (z e)) (old0 new0 : LocDofs dim nB K) :
    (Elliptic.mk' G).apply m loc old0 new0 (List.ofFn x) = .ok (List.ofFn (assemble nodes z)) := by
  unfold Elliptic.apply
  rw [show (Elliptic.mk' G).G = G from rfl, HyGraph.mat_vec_eq m G nodes hwf loc x z hz old0 new0]
  rfl

section
variable (m : Mode) (gesv : Gesv ((dim + 1) * nS) 1 K) (hg : GesvSpec gesv) (tau time a b : K)

section
variable {E₁ E₂ E : Edge dim nS K} (h12 : SameOperator E₁ E₂ nB time) (hsame : SameOperator E₁ E nB time) (hsup : Superposed a b E₁.toEdge E₂.toEdge E.toEdge time)
include h12 hsame hsup

/-- Local solutions are superposed. -/
theorem local_comb {l₁ l₂ : LocDofs dim nB K} {q₁ q₂ : Fin dim → Fin nS → K} {u₁ u₂ : Fin nS → K}
    (h1 : IsSolution (form E₁.toEdge nB time) (coeffs E₁ 0 time) tau (moments (form E₁.toEdge nB time) l₁ + dirichletMoments E₁.toEdge time) (source E₁.toEdge time) q₁ u₁)
    (h2 : IsSolution (form E₂.toEdge nB time) (coeffs E₂ 0 time) tau (moments (form E₂.toEdge nB time) l₂ + dirichletMoments E₂.toEdge time) (source E₂.toEdge time) q₂ u₂) :
    IsSolution (form E.toEdge nB time) (coeffs E 0 time) tau (moments (form E.toEdge nB time) (a • l₁ + b • l₂) + dirichletMoments E.toEdge time) (source E.toEdge time)
      (a • q₁ + b • q₂) (a • u₁ + b • u₂) := by
  have s1 : source E.toEdge time = a • source E₁.toEdge time + b • source E₂.toEdge time := funext hsup.source
  have d1 : dirichletMoments E.toEdge time = a • dirichletMoments E₁.toEdge time + b • dirichletMoments E₂.toEdge time := by
    classical
    funext f i
    show dirichletMoments E.toEdge time f i = a * dirichletMoments E₁.toEdge time f i + b * dirichletMoments E₂.toEdge time f i
    have c1 := hsame.diffusion.dirichlet f
    have c2 := h12.diffusion.dirichlet f
    by_cases hf : IsDirichlet E₁.toEdge f
    · simp only [dirichletMoments, if_pos hf, if_pos (c1.mpr hf), if_pos (c2.mpr hf)]
      exact hsup.values f i (c1.mpr hf)
    · simp only [dirichletMoments, if_neg hf, if_neg (mt c1.mp hf), if_neg (mt c2.mp hf), mul_zero, add_zero]
  rw [h12.diffusion.form, coeffs_same h12] at h2
  rw [hsame.diffusion.form, coeffs_same hsame, s1, d1, moments_lin]
  have h3 := solution_lin a b h1 h2
  simp only [smul_add] at h3
  rwa [add_add_add_comm] at h3

include hg

/-- **C117** (one hyperedge).  If `residual_flux` of the local solver returns `y₁` for the data `E₁` and the values `l₁`, and `y₂` for `E₂` and `l₂`, it returns `a y₁ + b y₂` for the combined data and
the combined values. -/
theorem C117_residual {l₁ l₂ o₁ o₂ y₁ y₂ : LocDofs dim nB K} (h1 : residual_flux m gesv tau l₁ o₁ E₁ time = .ok y₁) (h2 : residual_flux m gesv tau l₂ o₂ E₂ time = .ok y₂)
    (out : LocDofs dim nB K) : residual_flux m gesv tau (a • l₁ + b • l₂) out E time = .ok (a • y₁ + b • y₂) := by
  obtain ⟨hs, q₁, u₁, p1, rfl⟩ := of_res m gesv hg tau E₁ time h1
  obtain ⟨_, q₂, u₂, p2, rfl⟩ := of_res m gesv hg tau E₂ time h2
  have hs' : Solvable (form E.toEdge nB time) (coeffs E 0 time) tau := by rwa [hsame.diffusion.form, coeffs_same hsame]
  obtain ⟨q, u, p3, p4⟩ := (C81_residual m gesv hg tau E time (a • l₁ + b • l₂) out).1 hs'
  obtain ⟨rfl, rfl⟩ := solution_unique hs' p3 (local_comb tau time a b h12 hsame hsup p1 p2)
  rw [p4, h12.diffusion.form, hsame.diffusion.form, flux_lin, EllipticProgram.off_same hsame.diffusion, EllipticProgram.off_same h12.diffusion, EllipticProgram.off_comb]

/-- **C117** (what is plotted).  If evaluation is linear in the coefficients, `bulk_values` returns at each point of the grid and for each component the combination of what it returns for the two
problems. -/
theorem C117_bulk_values (hs : Solvable (form E₁.toEdge nB time) (coeffs E₁ 0 time) tau) (lin_comb : (Fin nS → K) → List K → K) (hl : LinearEval lin_comb) (abscissas : List K)
    (l₁ l₂ : LocDofs dim nB K) (w₁ w₂ w : Fin (dim + 1) → Fin (Hypercube.pow dim abscissas.length) → K) :
    ∃ v₁ v₂, bulk_values m gesv lin_comb tau abscissas l₁ E₁ time w₁ = .ok v₁ ∧ bulk_values m gesv lin_comb tau abscissas l₂ E₂ time w₂ = .ok v₂ ∧
      bulk_values m gesv lin_comb tau abscissas (a • l₁ + b • l₂) E time w = .ok (a • v₁ + b • v₂) := by
  have hs2 : Solvable (form E₂.toEdge nB time) (coeffs E₂ 0 time) tau := by rwa [h12.diffusion.form, coeffs_same h12]
  have hs3 : Solvable (form E.toEdge nB time) (coeffs E 0 time) tau := by rwa [hsame.diffusion.form, coeffs_same hsame]
  obtain ⟨q₁, u₁, p1, v₁, p2, p3⟩ := C81_bulk_values m gesv hg tau E₁ time hs lin_comb abscissas l₁ w₁
  obtain ⟨q₂, u₂, r1, v₂, r2, r3⟩ := C81_bulk_values m gesv hg tau E₂ time hs2 lin_comb abscissas l₂ w₂
  obtain ⟨q, u, s1, v, s2, s3⟩ := C81_bulk_values m gesv hg tau E time hs3 lin_comb abscissas (a • l₁ + b • l₂) w
  obtain ⟨rfl, rfl⟩ := solution_unique hs3 s1 (local_comb tau time a b h12 hsame hsup p1 r1)
  refine ⟨v₁, v₂, p2, r2, s2.trans (congrArg Res.ok ?_)⟩
  funext d pt
  obtain ⟨p, f1, f2, f3⟩ := p3 pt
  obtain ⟨p', g1, g2, g3⟩ := r3 pt
  obtain ⟨p'', k1, k2, k3⟩ := s3 pt
  obtain rfl := Res.ok.inj (f1.symm.trans g1)
  obtain rfl := Res.ok.inj (f1.symm.trans k1)
  show v d pt = a * v₁ d pt + b * v₂ d pt
  induction d using Fin.lastCases with
  | last => rw [k3, f3, g3]; exact hl a b u₁ u₂ p
  | cast d => rw [k2, f2, g2]; exact hl a b (q₁ d) (q₂ d) p

end

include hg

/-- Residuals exist if the local problems are solvable. -/
theorem residual_exists (E : Nat → Edge dim nS K) (G : HyGraph dim nB) (nodes : Fin G.n_hyEdges → Fin (2 * dim) → Fin G.n_hyNodes) (hwf : G.WF nodes)
    (hs : ∀ e, Solvable (form (E e).toEdge nB time) (coeffs (E e) 0 time) tau) (old0 new0 : LocDofs dim nB K) (y : Fin (G.n_hyNodes * nB) → K) :
    ∃ R : Fin (G.n_hyNodes * nB) → K, (Elliptic.mk' G).apply m (localResidual m gesv tau E time) old0 new0 (List.ofFn y) = .ok (List.ofFn R) := by
  have L : ∀ e : Fin G.n_hyEdges, ∃ z, residual_flux m gesv tau (faceValues nodes y e) (fun _ _ => 0) (E e) time = .ok z := fun e => by
    obtain ⟨_, _, _, h⟩ := (C81_residual m gesv hg tau (E e) time (faceValues nodes y e) (fun _ _ => 0)).1 (hs e)
    exact ⟨_, h⟩
  choose z hz using L
  exact ⟨_, apply_assemble m G nodes hwf (localResidual m gesv tau E time) y z hz old0 new0⟩

/-- **C117** (`Elliptic::residual_flux`).  If the data of `E` are on each hyperedge `a` times those of `E₁` plus `b` times those of `E₂`, and the residual is `R₁` for `E₁` and the vector `y₁`, `R₂` for
`E₂` and `y₂`, then it is `a R₁ + b R₂` for `E` and `a y₁ + b y₂`. -/
theorem C117_superposition (E₁ E₂ E : Nat → Edge dim nS K) (G : HyGraph dim nB) (nodes : Fin G.n_hyEdges → Fin (2 * dim) → Fin G.n_hyNodes) (hwf : G.WF nodes)
    (hs : ∀ e, Solvable (form (E₁ e).toEdge nB time) (coeffs (E₁ e) 0 time) tau) (h12 : ∀ e, SameOperator (E₁ e) (E₂ e) nB time) (hsame : ∀ e, SameOperator (E₁ e) (E e) nB time)
    (hsup : ∀ e, Superposed a b (E₁ e).toEdge (E₂ e).toEdge (E e).toEdge time) (old0 new0 : LocDofs dim nB K) (y₁ y₂ R₁ R₂ : Fin (G.n_hyNodes * nB) → K)
    (r1 : (Elliptic.mk' G).apply m (localResidual m gesv tau E₁ time) old0 new0 (List.ofFn y₁) = .ok (List.ofFn R₁))
    (r2 : (Elliptic.mk' G).apply m (localResidual m gesv tau E₂ time) old0 new0 (List.ofFn y₂) = .ok (List.ofFn R₂)) :
    (Elliptic.mk' G).apply m (localResidual m gesv tau E time) old0 new0 (List.ofFn (a • y₁ + b • y₂)) = .ok (List.ofFn (a • R₁ + b • R₂)) := by
  have hs2 : ∀ e, Solvable (form (E₂ e).toEdge nB time) (coeffs (E₂ e) 0 time) tau := fun e => by rw [(h12 e).diffusion.form, coeffs_same (h12 e)]; exact hs e
  have L1 : ∀ e : Fin G.n_hyEdges, ∃ z, residual_flux m gesv tau (faceValues nodes y₁ e) (fun _ _ => 0) (E₁ e) time = .ok z := fun e => by
    obtain ⟨_, _, _, h⟩ := (C81_residual m gesv hg tau (E₁ e) time (faceValues nodes y₁ e) (fun _ _ => 0)).1 (hs e)
    exact ⟨_, h⟩
  have L2 : ∀ e : Fin G.n_hyEdges, ∃ z, residual_flux m gesv tau (faceValues nodes y₂ e) (fun _ _ => 0) (E₂ e) time = .ok z := fun e => by
    obtain ⟨_, _, _, h⟩ := (C81_residual m gesv hg tau (E₂ e) time (faceValues nodes y₂ e) (fun _ _ => 0)).1 (hs2 e)
    exact ⟨_, h⟩
  choose z₁ hz₁ using L1
  choose z₂ hz₂ using L2
  have M1 := apply_assemble m G nodes hwf (localResidual m gesv tau E₁ time) y₁ z₁ hz₁ old0 new0
  have M2 := apply_assemble m G nodes hwf (localResidual m gesv tau E₂ time) y₂ z₂ hz₂ old0 new0
  have M := apply_assemble m G nodes hwf (localResidual m gesv tau E time) (a • y₁ + b • y₂) (fun e => a • z₁ e + b • z₂ e)
    (fun e => C117_residual m gesv hg tau time a b (h12 e) (hsame e) (hsup e) (hz₁ e) (hz₂ e) _) old0 new0
  have k1 := List.ofFn_injective (Res.ok.inj (r1.symm.trans M1))
  have k2 := List.ofFn_injective (Res.ok.inj (r2.symm.trans M2))
  refine M.trans ?_
  rw [EllipticProgram.assemble_comb, k1, k2]

/-- **C117** (discrete solutions).  The combination of two discrete solutions is a discrete solution of the combined problem. -/
theorem C117_solutions (E₁ E₂ E : Nat → Edge dim nS K) (G : HyGraph dim nB) (nodes : Fin G.n_hyEdges → Fin (2 * dim) → Fin G.n_hyNodes) (hwf : G.WF nodes)
    (hs : ∀ e, Solvable (form (E₁ e).toEdge nB time) (coeffs (E₁ e) 0 time) tau) (h12 : ∀ e, SameOperator (E₁ e) (E₂ e) nB time) (hsame : ∀ e, SameOperator (E₁ e) (E e) nB time)
    (hsup : ∀ e, Superposed a b (E₁ e).toEdge (E₂ e).toEdge (E e).toEdge time) (old0 new0 : LocDofs dim nB K) (y₁ y₂ : Fin (G.n_hyNodes * nB) → K)
    (r1 : (Elliptic.mk' G).apply m (localResidual m gesv tau E₁ time) old0 new0 (List.ofFn y₁) = .ok (List.replicate (G.n_hyNodes * nB) 0))
    (r2 : (Elliptic.mk' G).apply m (localResidual m gesv tau E₂ time) old0 new0 (List.ofFn y₂) = .ok (List.replicate (G.n_hyNodes * nB) 0)) :
    (Elliptic.mk' G).apply m (localResidual m gesv tau E time) old0 new0 (List.ofFn (a • y₁ + b • y₂)) = .ok (List.replicate (G.n_hyNodes * nB) 0) := by
  rw [← List.ofFn_const] at r1 r2 ⊢
  have := C117_superposition m gesv hg tau time a b E₁ E₂ E G nodes hwf hs h12 hsame hsup old0 new0 y₁ y₂ _ _ r1 r2
  rw [this]
  congr 2
  funext k
  simp

end

/-! ## Examples -/

namespace Example

/-- `E1` with right-hand side `s` and prescribed value `g`. -/
def E1data (b : ℚ → ℚ) (r : ℚ) (D : List Nat) (s g : ℚ) : Edge 1 1 ℚ := { E1 b r D with vol_phifunc := fun _ _ => s, bdr_phifunc := fun _ _ _ => g }

theorem E1data_same (b : ℚ → ℚ) (r : ℚ) (D : List Nat) (s g s' g' time : ℚ) : SameOperator (E1data b r D s g) (E1data b r D s' g') 1 time :=
  ⟨⟨rfl, fun _ => Iff.rfl⟩, fun _ _ _ => rfl, fun _ _ => rfl⟩

theorem E1data_sup (b : ℚ → ℚ) (r : ℚ) (D : List Nat) (s g s' g' x y time : ℚ) :
    Superposed x y (E1data b r D s g).toEdge (E1data b r D s' g').toEdge (E1data b r D (x * s + y * s') (x * g + y * g')).toEdge time := ⟨fun _ => rfl, fun _ _ _ => rfl⟩

theorem E1data_solvable (b : ℚ → ℚ) (r : ℚ) (D : List Nat) (s g time : ℚ) (hr : 0 ≤ r) : Solvable (form (E1data b r D s g).toEdge 1 time) (coeffs (E1data b r D s g) 0 time) 1 :=
  E1_solvable b r D time (by positivity)

/-- Two hyperedges in a row with velocity 1 and reaction rate 2, the right end is a Dirichlet node: the residuals exist for all vectors, and those for the right-hand side 2 * 5 - 3 * 1 and the value
2 * 4 - 3 * 7 are the combinations. -/
theorem C117_example (y₁ y₂ : Fin (3 * 1) → ℚ) : ∃ R₁ R₂ : Fin (3 * 1) → ℚ,
    let G : HyGraph 1 1 := ⟨2, 3, fun e f => e + f⟩
    let E : ℚ → ℚ → Nat → Edge 1 1 ℚ := fun s g e => E1data (fun _ => 1) 2 (if e = 1 then [2] else []) s g
    let R : (Nat → Edge 1 1 ℚ) → (Fin (3 * 1) → ℚ) → Res (List ℚ) := fun E y => (Elliptic.mk' G).apply .debug (localResidual .debug (cramerSolve _ _ ℚ) 1 E 0) 0 0 (List.ofFn y)
    R (E 5 4) y₁ = .ok (List.ofFn R₁) ∧ R (E 1 7) y₂ = .ok (List.ofFn R₂) ∧
      R (E (2 * 5 + -3 * 1) (2 * 4 + -3 * 7)) ((2 : ℚ) • y₁ + (-3 : ℚ) • y₂) = .ok (List.ofFn ((2 : ℚ) • R₁ + (-3 : ℚ) • R₂)) := by
  let E : ℚ → ℚ → Nat → Edge 1 1 ℚ := fun s g e => E1data (fun _ => 1) 2 (if e = 1 then [2] else []) s g
  have hs : ∀ s g e, Solvable (form (E s g e).toEdge 1 0) (coeffs (E s g e) 0 0) 1 := fun s g e => E1data_solvable _ _ _ _ _ _ (by norm_num)
  obtain ⟨R₁, h1⟩ := residual_exists (nB := 1) .debug (cramerSolve _ _ ℚ) (C44_example _ _ ℚ) 1 0 (E 5 4) ⟨2, 3, fun e f => e + f⟩ nodes2 ⟨fun _ _ => rfl, by decide⟩ (hs 5 4) 0 0 y₁
  obtain ⟨R₂, h2⟩ := residual_exists (nB := 1) .debug (cramerSolve _ _ ℚ) (C44_example _ _ ℚ) 1 0 (E 1 7) ⟨2, 3, fun e f => e + f⟩ nodes2 ⟨fun _ _ => rfl, by decide⟩ (hs 1 7) 0 0 y₂
  exact ⟨R₁, R₂, h1, h2, C117_superposition (nB := 1) .debug (cramerSolve _ _ ℚ) (C44_example _ _ ℚ) 1 0 2 (-3) (E 5 4) (E 1 7) (E (2 * 5 + -3 * 1) (2 * 4 + -3 * 7))
    ⟨2, 3, fun e f => e + f⟩ nodes2 ⟨fun _ _ => rfl, by decide⟩ (hs 5 4) (fun e => E1data_same _ _ _ _ _ _ _ _) (fun e => E1data_same _ _ _ _ _ _ _ _) (fun e => E1data_sup _ _ _ _ _ _ _ _ _ _)
    0 0 y₁ y₂ R₁ R₂ h1 h2⟩

/-- Velocity 1 without reaction on two hyperedges in a row: the two problems have discrete solutions, and their combination solves the combined problem. -/
theorem C117_solutions_example (s g s' g' : ℚ) : ∃ y₁ y₂ : Fin (3 * 1) → ℚ,
    let G : HyGraph 1 1 := ⟨2, 3, fun e f => e + f⟩
    let E : ℚ → ℚ → Nat → Edge 1 1 ℚ := fun s g e => E1data (fun _ => 1) 0 (if e = 1 then [2] else []) s g
    let R : (Nat → Edge 1 1 ℚ) → (Fin (3 * 1) → ℚ) → Res (List ℚ) := fun E y => (Elliptic.mk' G).apply .debug (localResidual .debug (cramerSolve _ _ ℚ) 1 E 0) 0 0 (List.ofFn y)
    R (E s g) y₁ = .ok [0, 0, 0] ∧ R (E s' g') y₂ = .ok [0, 0, 0] ∧ R (E (2 * s + -3 * s') (2 * g + -3 * g')) ((2 : ℚ) • y₁ + (-3 : ℚ) • y₂) = .ok [0, 0, 0] := by
  let E : ℚ → ℚ → Nat → Edge 1 1 ℚ := fun s g e => E1data (fun _ => 1) 0 (if e = 1 then [2] else []) s g
  have hs : ∀ s g e, Solvable (form (E s g e).toEdge 1 0) (coeffs (E s g e) 0 0) 1 := fun s g e => E1data_solvable _ _ _ _ _ _ le_rfl
  have hex : ∀ s g, ∃ y : Fin (3 * 1) → ℚ, (Elliptic.mk' ⟨2, 3, fun e f => e + f⟩).apply .debug (localResidual (nB := 1) .debug (cramerSolve _ _ ℚ) 1 (E s g) 0) 0 0 (List.ofFn y) = .ok (List.replicate (3 * 1) 0) := by
    intro s g
    obtain ⟨y, ⟨_, hy⟩, _⟩ := C82_unique (nB := 1) .debug _ (C44_example _ _ ℚ) 1 (E s g) 0 ⟨2, 3, fun e f => e + f⟩ nodes2 ⟨fun _ _ => rfl, by decide⟩ 0 0
      (fun _ => E1_laws (fun _ => 1) 0 [] 0) (fun _ => E1_rigid (fun _ => 1) 0 [] 0) (fun _ _ => 1)
      (fun e => ⟨fun d => by ext i j; simp [coeffs, form, E, E1data, E1], fun u => by simp [coeffs, E, E1data, E1, dotProduct, mulVec]⟩)
      (fun e f => by rcases face_two f with rfl | rfl <;> norm_num [normalVelocity, form, E, E1data, E1])
      (fun v => v.1 = 2) (fun e f => by
        revert e f
        show ∀ (e : Fin 2) (f : Fin (2 * 1)), _ ↔ e.1 + f.1 = 2
        intro e f
        rcases face_two f with rfl | rfl <;> fin_cases e <;> simp [E, E1data, E1])
      (fun v hv => by
        change ∑ e : Fin 2, _ ≤ (0 : ℚ)
        simp only [sum2, Fin.sum_univ_two]
        change Fin 3 at v
        fin_cases v <;> simp_all [nodes2, normalVelocity, form, E, E1data, E1])
      (fun v => ⟨⟨2, by decide⟩, rfl, by
        have h1 : ∀ e : Fin 2, Adjacent nodes2 ⟨e.1 + 1, by omega⟩ ⟨e.1, by omega⟩ := fun e => ⟨e, 1, 0, rfl, rfl⟩
        change Fin 3 at v
        fin_cases v
        · exact .tail (.single (h1 1)) (h1 0)
        · exact .single (h1 1)
        · exact .refl⟩)
    refine ⟨y, ?_⟩
    unfold Elliptic.apply
    exact (congrArg (· >>= _) hy).trans rfl
  obtain ⟨y₁, h1⟩ := hex s g
  obtain ⟨y₂, h2⟩ := hex s' g'
  exact ⟨y₁, y₂, h1, h2, C117_solutions (nB := 1) .debug (cramerSolve _ _ ℚ) (C44_example _ _ ℚ) 1 0 2 (-3) (E s g) (E s' g') (E (2 * s + -3 * s') (2 * g + -3 * g'))
    ⟨2, 3, fun e f => e + f⟩ nodes2 ⟨fun _ _ => rfl, by decide⟩ (hs s g) (fun e => E1data_same _ _ _ _ _ _ _ _) (fun e => E1data_same _ _ _ _ _ _ _ _) (fun e => E1data_sup _ _ _ _ _ _ _ _ _ _)
    0 0 y₁ y₂ h1 h2⟩

/-- What is plotted, with the constants as shape functions. -/
example := C117_bulk_values (nB := 1) .debug _ (C44_example _ _ ℚ) 1 0 2 (-3) (E1data_same (fun _ => 1) 2 [2] 5 4 1 7 0) (E1data_same (fun _ => 1) 2 [2] 5 4 _ _ 0) (E1data_sup (fun _ => 1) 2 [2] 5 4 1 7 2 (-3) 0)
  (E1data_solvable _ _ _ _ _ _ (by norm_num)) (fun c _ => c 0) (fun _ _ _ _ _ => rfl) [0, 1]

end Example
end HyperHDG.DAR
