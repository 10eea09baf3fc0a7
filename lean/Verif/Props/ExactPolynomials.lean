import Verif.Proofs.PolynomialProblem
import Verif.Props.Exact
import Verif.Model.ExampleParameters

/-!
# Property C92 for polynomial solutions

`IsPolynomialSolution` (`Verif/Spec/PolynomialProblem.lean`): polynomials which solve the differential equations pointwise, with matching values and balanced fluxes at the hypernodes.
-/

namespace HyperHDG.Exact

open Finset Spec Matrix HyGraph Diffusion EllipticProgram Polynomial

variable {p d : Nat} {P : Fin (p + 1) → ℝ[X]}

/-- The coordinates of a point. -/
def coords (d : Nat) (l : List ℝ) : Fin d → ℝ := fun k => l.getD k 0

/-- **C92** (polynomials).  Let polynomials of degree at most `p` in each variable of the hyperedges solve the diffusion problem on a hypergraph of affine hyperedges, where each hypernode is connected to a Dirichlet
node.  Then for each `tau > 0` there is exactly one vector which vanishes at the Dirichlet nodes and has residual zero; its entries are the coefficients of the values of the exact solution at the hypernodes,
`bulk_values` returns the values of the exact flux and the exact solution, and `errors` returns zero if the analytic result is the exact solution. -/
theorem C92_polynomials (hP : OrthonormalPolys p P) (m : Mode) (gesv : Gesv (((d + 1) + 1) * (p + 1) ^ (d + 1)) 1 ℝ) (hg : GesvSpec gesv) (tau : ℝ) (ht : 0 < tau)
    (B : Nat → Data d) (hB : ∀ e, (B e).Admissible) (time : ℝ) (E : Nat → Edge (d + 1) ((p + 1) ^ (d + 1)) ℝ) (hE : ∀ e, ExactIntegrals P (B e) time (E e))
    (G : HyGraph (d + 1) ((p + 1) ^ d)) (nodes : Fin G.n_hyEdges → Fin (2 * (d + 1)) → Fin G.n_hyNodes) (hwf : G.WF nodes)
    (D : Fin G.n_hyNodes → Prop) (hD : ∀ (e : Fin G.n_hyEdges) (f : Fin (2 * (d + 1))), (E e).node_descriptor f ∈ (E e).dirichlet_nodes ↔ D (nodes e f)) (hcon : Anchored nodes D)
    {q : Fin G.n_hyEdges → Fin (d + 1) → (Fin (d + 1) → ℝ) → ℝ} {u : Fin G.n_hyEdges → (Fin (d + 1) → ℝ) → ℝ} {w : Fin G.n_hyNodes → (Fin d → ℝ) → ℝ}
    (h : IsPolynomialSolution p (fun e : Fin G.n_hyEdges => B e) nodes D q u w) :
    ∃ x : Fin (G.n_hyNodes * (p + 1) ^ d) → ℝ,
      (∀ old0 new0 y, (VanishesAt D y ∧
        (Elliptic.mk' G).apply m (localResidual m gesv tau E time) old0 new0 (List.ofFn y) = .ok (List.replicate (G.n_hyNodes * (p + 1) ^ d) 0)) ↔ y = x) ∧
      (∀ e f, ¬ D (nodes e f) → ∀ y ∈ cube d, polyFun P (faceValues nodes x e f) y = u e (facePoint f y)) ∧
      (∀ (e : Fin G.n_hyEdges) abscissas vals0, ∃ vals, bulk_values m gesv (fun c l => polyFun P c (coords (d + 1) l)) tau abscissas (faceValues nodes x e) (E e) time vals0 = .ok vals ∧
        ∀ pt : Fin (Hypercube.pow (d + 1) abscissas.length), ∃ l, Hypercube.tensorial_pt m (d + 1) pt abscissas = .ok l ∧
          (∀ k : Fin (d + 1), vals k.castSucc pt = q e k (coords (d + 1) l)) ∧ vals (Fin.last (d + 1)) pt = u e (coords (d + 1) l)) ∧
      ∀ e : Fin G.n_hyEdges, (∀ z ∈ cube (d + 1), (B e).w z = u e z) → errors m gesv tau (faceValues nodes x e) (E e) time = .ok (fun _ => 0) := by
  obtain ⟨cq, cu, x, hx, hq, hu, hw⟩ := exact_of_polynomial hP (fun e : Fin G.n_hyEdges => B e) (fun e => hB e) time E (fun e => hE e) nodes D h
  have hF := fun e => (exact_laws hP (hB e) (hE e)).1
  have hR := fun e => (exact_laws hP (hB e) (hE e)).2
  refine ⟨x, fun old0 new0 y => C92_exact m gesv hg tau ht E time hF G nodes hwf D hD hx hR hcon old0 new0 y, fun e f hf y hy => ?_, fun e abscissas vals0 => ?_, fun e he => ?_⟩
  · rw [h.continuous e f hf y hy, hw e f hf y hy]
  · obtain ⟨vals, h1, h2⟩ := C92_bulk_values m gesv hg tau ht E time hF G nodes D hD hx e (fun c l => polyFun P c (coords (d + 1) l)) abscissas vals0
    refine ⟨vals, h1, fun pt => ?_⟩
    obtain ⟨l, h3, h4, h5⟩ := h2 pt
    exact ⟨l, h3, fun k => by rw [h4, hq], by rw [h5, hu]⟩
  · rw [C92_errors m gesv hg tau ht E time hF G nodes D hD hx e, (hE e).diff]
    rw [cubeInt_congr (g := fun _ => 0) fun z hz => by rw [he z hz, hu, sub_self]; norm_num]
    simp [cubeInt]

/-! ## A concrete instance: the parameters `QuadEllipt` on a path -/

namespace Example

open Parameters

/-- Hyperedge `e` of a path on the real line: the interval from `h e` to `h (e + 1)`, with the data of `QuadEllipt`. -/
noncomputable def B (h : ℝ) (e : Nat) : Data 0 where
  A := ⟨h, 1, fun _ => 1, fun f _ => if f.1 % 2 = 0 then -1 else 1⟩
  a := fun x => (quadEllipt (s := 1) 1).inverse_diffusion_coeff (fun _ => h * (e + x 0)) 0
  f := fun x => (quadEllipt (s := 1) 1).right_hand_side (fun _ => h * (e + x 0)) 0
  g := fun x => (quadEllipt (s := 1) 1).dirichlet_value (fun _ => h * (e + x 0)) 0
  w := fun x => (quadEllipt (s := 1) 1).analytic_result (fun _ => h * (e + x 0)) 0

theorem only (k : Fin (0 + 1)) : k = 0 := Fin.ext (by have := k.2; show k.1 = 0; omega)

theorem quad (r : ℝ) : (quadEllipt (s := 1) 1).analytic_result (fun _ => r) 0 = -(r * r) := by
  simp [quadEllipt, List.finRange_succ]

theorem B_admissible {h : ℝ} (hh : 0 < h) (e : Nat) : (B h e).Admissible where
  affine := ⟨hh, isUnit_one, fun _ => one_pos, fun f k => by
    have h1 : axis f = 0 := only _
    have h2 : k = 0 := only k
    subst h2
    simp only [B, Spec.normal, h1, Matrix.one_apply_eq, mul_one]⟩
  cont := continuous_const
  pos := fun _ => one_pos

/-- A hyperedge with these integrals; the nodes 0 and `n` are Dirichlet nodes. -/
noncomputable def E (P : Fin (p + 1) → ℝ[X]) (h : ℝ) (n e : Nat) : Edge (0 + 1) ((p + 1) ^ (0 + 1)) ℝ where
  vol_phiphi i j := h * (tensorIntegrator (p + 1) 1 (exactBasis P)).vol_phiphi i j
  vol_phiphifunc _ i j := if hij : i < (p + 1) ^ 1 ∧ j < (p + 1) ^ 1 then h * cubeInt fun x => (B h e).a x * (shape P ⟨i, hij.1⟩ x * shape P ⟨j, hij.2⟩ x) else 0
  vol_nablaphiphi i j k := ∑ a : Fin 1, (1 : Matrix (Fin 1) (Fin 1) ℝ) a k * (tensorIntegrator (p + 1) 1 (exactBasis P)).vol_Dphiphi i j a
  bdr_phiphi i j f := 1 * (tensorIntegrator (p + 1) 1 (exactBasis P)).bdr_phiphi i j f
  bdr_phipsi i j f := 1 * (tensorIntegrator (p + 1) 1 (exactBasis P)).bdr_phipsi i j f
  vol_phifunc _ i := if hi : i < (p + 1) ^ 1 then h * cubeInt fun x => (B h e).f x * shape P ⟨i, hi⟩ x else 0
  bdr_phifunc _ i f := if hif : i < (p + 1) ^ 1 ∧ f < 2 * 1 then 1 * cubeInt fun y => (B h e).g (facePoint ⟨f, hif.2⟩ y) * shape P ⟨i, hif.1⟩ (facePoint ⟨f, hif.2⟩ y) else 0
  bdrUni_psifunc _ _ _ := 0
  vol_diffsquare _ u := h * cubeInt fun x => (polyFun P u x - (B h e).w x) ^ 2
  local_normal f _ := if f % 2 = 0 then -1 else 1
  face_area _ := 1
  node_descriptor f := if e + f = 0 ∨ e + f = n then 1 else 0
  dirichlet_nodes := [1]

theorem E_exact (P : Fin (p + 1) → ℝ[X]) (h : ℝ) (n e : Nat) : ExactIntegrals P (B h e) 0 (E P h n e) where
  form := by
    unfold form affineForm
    congr 1
    ext i j
    show (if hij : i.1 < (p + 1) ^ 1 ∧ j.1 < (p + 1) ^ 1 then _ else _) = _
    rw [dif_pos ⟨i.2, j.2⟩]
    rfl
  source := fun i => by
    show (if hi : i.1 < (p + 1) ^ 1 then _ else _) = _
    rw [dif_pos i.2]
    rfl
  dirichlet := fun i f => by
    show (if hif : i.1 < (p + 1) ^ 1 ∧ f.1 < 2 * 1 then _ else _) = _
    rw [dif_pos ⟨i.2, f.2⟩]
    rfl
  diff := fun _ => rfl

/-- A path with `n` edges. -/
def path (p n : Nat) : HyGraph (0 + 1) ((p + 1) ^ 0) := ⟨n, n + 1, fun e f => e + f⟩

def pathNodes (p n : Nat) : Fin (path p n).n_hyEdges → Fin (2 * (0 + 1)) → Fin (path p n).n_hyNodes := fun e f =>
  ⟨e + f, by have h1 : e.1 < n := e.2; have h2 := f.2; show e.1 + f.1 < n + 1; omega⟩

theorem path_wf (p n : Nat) (hn : n + 1 < U32) : (path p n).WF (pathNodes p n) := ⟨fun _ _ => rfl, by show (n + 1) * (p + 1) ^ 0 < U32; simpa using hn⟩

def Ends (p n : Nat) (v : Fin (path p n).n_hyNodes) : Prop := v.1 = 0 ∨ v.1 = n

theorem path_anchored (p n : Nat) : Spec.Anchored (pathNodes p n) (Ends p n) := by
  intro v
  refine ⟨⟨0, Nat.succ_pos n⟩, .inl rfl, ?_⟩
  obtain ⟨v, hv⟩ := v
  induction v with
  | zero => exact .refl
  | succ v ih =>
    have hv' : v < n := Nat.lt_of_succ_lt_succ hv
    exact (ih (Nat.lt_succ_of_lt hv')).tail ⟨⟨v, hv'⟩, 0, 1, rfl, rfl⟩

theorem path_solution (p n : Nat) (hp : 2 ≤ p) (h : ℝ) : IsPolynomialSolution p (fun e : Fin (path p n).n_hyEdges => B h e) (pathNodes p n) (Ends p n)
    (fun e _ x => 2 * (h * (e.1 + x 0))) (fun e x => -(h * (e.1 + x 0) * (h * (e.1 + x 0)))) (fun v _ => -(h * v.1 * (h * v.1))) where
  poly_q := fun e k => by
    refine ⟨MvPolynomial.C (2 * h * e.1) + MvPolynomial.C (2 * h) * MvPolynomial.X 0, fun k => ?_, fun x => by simp; ring⟩
    refine (MvPolynomial.degreeOf_add_le _ _ _).trans (max_le (by rw [MvPolynomial.degreeOf_C]; omega) ((MvPolynomial.degreeOf_mul_le _ _ _).trans ?_))
    have := MvPolynomial.degreeOf_X (R := ℝ) k (0 : Fin 1)
    rw [MvPolynomial.degreeOf_C, this]
    split <;> omega
  poly_u := fun e => by
    refine ⟨(MvPolynomial.C (h * e.1) + MvPolynomial.C h * MvPolynomial.X 0) * (MvPolynomial.C (-(h * e.1)) + MvPolynomial.C (-h) * MvPolynomial.X 0), fun k => ?_, fun x => by simp; ring⟩
    have h1 : ∀ a b : ℝ, (MvPolynomial.C a + MvPolynomial.C b * MvPolynomial.X (0 : Fin 1)).degreeOf k ≤ 1 := fun a b => by
      refine (MvPolynomial.degreeOf_add_le _ _ _).trans (max_le (by rw [MvPolynomial.degreeOf_C]; omega) ((MvPolynomial.degreeOf_mul_le _ _ _).trans ?_))
      have := MvPolynomial.degreeOf_X (R := ℝ) k (0 : Fin 1)
      rw [MvPolynomial.degreeOf_C, this]
      split <;> omega
    exact ((MvPolynomial.degreeOf_mul_le _ _ _).trans (Nat.add_le_add (h1 _ _) (h1 _ _))).trans hp
  equation := fun e => by
    have hx : ∀ x : Fin 1 → ℝ, ∀ l : Fin 1, HasDerivAt (fun r => h * ((e.1 : ℝ) + Function.update x l r 0)) h (x l) := fun x l => by
      have hl : l = 0 := Subsingleton.elim _ _
      subst hl
      simp only [Function.update_self]
      simpa using ((hasDerivAt_id (x 0)).const_add (e.1 : ℝ)).const_mul h
    refine ⟨fun _ x => -(2 * h * (h * (e.1 + x 0))), fun _ _ _ => 2 * h, fun l x => ?_, fun _ l x => (hx x l).const_mul 2, fun x _ => ⟨fun k => ?_, ?_⟩⟩
    · have hl : l = 0 := only l
      have := ((hx x l).mul (hx x l)).neg
      subst hl
      refine this.congr_deriv ?_
      simp only [Function.update_self]
      ring
    · have hk : k = 0 := only k
      subst hk
      simp [B, quadEllipt]
      ring
    · simp [B, quadEllipt]
      ring
  continuous := fun e f _ y _ => by
    have hf : f = 0 ∨ f = 1 := by
      have := f.2
      rcases (show f.1 = 0 ∨ f.1 = 1 by omega) with h | h
      · exact .inl (Fin.ext h)
      · exact .inr (Fin.ext h)
    have ha : ∀ f : Fin (2 * 1), facePoint (d := 0) f y 0 = if f.1 % 2 = 0 then 0 else 1 := fun f => by
      unfold facePoint
      rw [show (0 : Fin 1) = axis f from Subsingleton.elim _ _, Fin.insertNth_apply_same]
    rw [ha]
    rcases hf with rfl | rfl <;> simp [pathNodes]
  dirichlet := fun e f _ y _ => by
    show _ = (quadEllipt (s := 1) 1).analytic_result (fun _ => h * (e.1 + facePoint f y 0)) 0
    rw [quad]
  balance := fun v hv y _ => by
    have ha : ∀ f : Fin (2 * 1), facePoint (d := 0) f y 0 = if f.1 % 2 = 0 then 0 else 1 := fun f => by
      unfold facePoint
      rw [show (0 : Fin 1) = axis f from Subsingleton.elim _ _, Fin.insertNth_apply_same]
    have hv0 : v.1 ≠ 0 := fun h => hv (.inl h)
    have hvn : v.1 ≠ n := fun h => hv (.inr h)
    have hv2 : v.1 < n + 1 := v.2
    have hsum : ∀ g : Fin (2 * (0 + 1)) → ℝ, ∑ f, g f = g 0 + g 1 := fun g => Fin.sum_univ_two g
    simp only [hsum, Finset.sum_add_distrib]
    have s1 : (∑ e : Fin (path p n).n_hyEdges, if pathNodes p n e 0 = v then (B h e).A.area 0 * ∑ k, (B h e).A.normal 0 k * (2 * (h * (e.1 + facePoint 0 y 0))) else 0) = -(2 * (h * v.1)) := by
      rw [Finset.sum_eq_single (⟨v.1, by show v.1 < n; omega⟩ : Fin (path p n).n_hyEdges)]
      · rw [if_pos (show pathNodes p n ⟨v.1, _⟩ 0 = v from Fin.ext rfl), ha]
        simp [B]
      · intro e _ he
        refine if_neg fun h' => he (Fin.ext ?_)
        have h2 : e.1 + 0 = v.1 := congrArg Fin.val h'
        exact h2
      · simp
    have s2 : (∑ e : Fin (path p n).n_hyEdges, if pathNodes p n e 1 = v then (B h e).A.area 1 * ∑ k, (B h e).A.normal 1 k * (2 * (h * (e.1 + facePoint 1 y 0))) else 0) = 2 * (h * v.1) := by
      rw [Finset.sum_eq_single (⟨v.1 - 1, by show v.1 - 1 < n; omega⟩ : Fin (path p n).n_hyEdges)]
      · rw [if_pos (Fin.ext (by show v.1 - 1 + 1 = v.1; omega)), ha]
        have hc : ((v.1 - 1 : Nat) : ℝ) = v.1 - 1 := by rw [Nat.cast_sub (by omega)]; simp
        simp [B, hc]
      · intro e _ he
        refine if_neg fun h' => he (Fin.ext ?_)
        have h2 : e.1 + 1 = v.1 := congrArg Fin.val h'
        show e.1 = v.1 - 1
        omega
      · simp
    exact (congrArg₂ (· + ·) s1 s2).trans (neg_add_cancel _)

/-- The hypotheses of C92 can be met: with `QuadEllipt` on a path with any number of edges of any length, for each degree at least two and each `tau > 0`, the values at the inner nodes are those of the analytic result, and `errors` returns zero. -/
theorem C92_quadratic (p n : Nat) (hp : 2 ≤ p) (hn : n + 1 < U32) (h : ℝ) (hh : 0 < h) (P : Fin (p + 1) → ℝ[X]) (hP : OrthonormalPolys p P) (m : Mode)
    (gesv : Gesv (((0 + 1) + 1) * (p + 1) ^ (0 + 1)) 1 ℝ) (hg : GesvSpec gesv) (tau : ℝ) (ht : 0 < tau) :
    ∃ x : Fin ((n + 1) * (p + 1) ^ 0) → ℝ, (∀ old0 new0 y, (VanishesAt (Ends p n) y ∧
        (Elliptic.mk' (path p n)).apply m (localResidual m gesv tau (E P h n) 0) old0 new0 (List.ofFn y) = .ok (List.replicate ((n + 1) * (p + 1) ^ 0) 0)) ↔ y = x) ∧
      (∀ e f, ¬ Ends p n (pathNodes p n e f) → ∀ y ∈ cube 0, polyFun P (faceValues (pathNodes p n) x e f) y = -(h * (pathNodes p n e f).1 * (h * (pathNodes p n e f).1))) ∧
      ∀ e : Fin n, errors m gesv tau (faceValues (pathNodes p n) x e) (E P h n e) 0 = .ok (fun _ => 0) := by
  have hsol := path_solution p n hp h
  obtain ⟨x, h1, h2, _, h4⟩ := C92_polynomials hP m gesv hg tau ht (B h) (B_admissible hh) 0 (E P h n) (E_exact P h n) (path p n) (pathNodes p n) (path_wf p n hn) (Ends p n)
    (fun e f => by
      show (if e.1 + f.1 = 0 ∨ e.1 + f.1 = n then 1 else 0) ∈ [1] ↔ e.1 + f.1 = 0 ∨ e.1 + f.1 = n
      split <;> simp_all) (path_anchored p n) hsol
  exact ⟨x, h1, fun e f hf y hy => (h2 e f hf y hy).trans (hsol.continuous e f hf y hy), fun e => h4 e fun z _ => quad _⟩

end Example

end HyperHDG.Exact
