import Verif.Proofs.NetworkSolution
import Verif.Spec.NetworkRefinement
import Verif.Props.Connected
import Verif.Props.NodeTypes

/-!
# Refined networks
-/

namespace HyperHDG.Estimate

open Finset Spec Matrix HyGraph Diffusion EllipticProgram Exact Polynomial HyperHDG.Topology Relation

theorem part_admissible {B : Data 0} (hB : B.Admissible) {n : Nat} (hn : 0 < n) (k : Nat) : (B.part n k).Admissible where
  affine := ⟨div_pos hB.affine.vol_pos (Nat.cast_pos.mpr hn), hB.affine.cof_inv, hB.affine.area_pos, hB.affine.piola⟩
  cont := hB.cont.comp (continuous_pi fun _ => (continuous_const.add (continuous_apply 0)).div_const _)
  pos := fun _ => hB.pos _

theorem part_coefficient {p : Nat} {B : Data 0} (h : PolynomialCoefficient p B) (n k : Nat) : PolynomialCoefficient p (B.part n k) := by
  obtain ⟨r, hr, ha⟩ := h
  refine ⟨r.comp (C (1 / n : ℝ) * X + C (k / n : ℝ)), ?_, fun z => ?_⟩
  · refine lt_of_le_of_lt natDegree_comp_le (lt_of_le_of_lt ?_ hr)
    exact (Nat.mul_le_mul_left _ (natDegree_linear_le (a := (1 / n : ℝ)) (b := (k / n : ℝ)))).trans (Nat.mul_one _).le
  · show B.a _ = _
    rw [ha, eval_comp]
    congr 1
    simp
    ring

/-- The solution on a part of an edge. -/
theorem part_solves {B : Data 0} {q : Fin (0 + 1) → (Fin (0 + 1) → ℝ) → ℝ} {u : (Fin (0 + 1) → ℝ) → ℝ} (h : SolvesClassically B q u) {n k : Nat} (hk : k < n) :
    SolvesClassically (B.part n k) (fun l z => q l fun _ => (k + z 0) / n) fun z => u fun _ => (k + z 0) / n := by
  obtain ⟨Q', U', hQc, hUc, hQ, hU, he⟩ := line_solves h
  have hn : (0 : ℝ) < n := Nat.cast_pos.mpr (Nat.zero_lt_of_lt hk)
  have hx : ∀ s : ℝ, HasDerivAt (fun s : ℝ => (k + s) / n) (1 / n : ℝ) s := fun s => ((hasDerivAt_id s).const_add (k : ℝ)).div_const (n : ℝ)
  have hxc : Continuous fun s : ℝ => (k + s) / n := (continuous_const.add continuous_id).div_const _
  have h1 := solves_line (B := B.part n k) (Q := fun s => q 0 fun _ => (k + s) / n) (U := fun s => u fun _ => (k + s) / n) (Q' := fun s => Q' ((k + s) / n) * (1 / n)) (U' := fun s => U' ((k + s) / n) * (1 / n))
    (fun s => (hQ _).comp s (hx s)) (fun s => (hU _).comp s (hx s)) ((hQc.comp hxc).mul continuous_const) ((hUc.comp hxc).mul continuous_const) fun s hs => by
      have hm : ((k : ℝ) + s) / n ∈ Set.Icc (0 : ℝ) 1 := by
        have : (k : ℝ) + 1 ≤ n := by exact_mod_cast hk
        refine ⟨div_nonneg (add_nonneg (Nat.cast_nonneg k) hs.1) hn.le, (div_le_one hn).mpr (by linarith [hs.2])⟩
      have h1 := (he _ hm).1
      have h2 := (he _ hm).2
      constructor
      · show B.A.vol / n * (B.a (fun _ => (k + s) / n) * q 0 fun _ => (k + s) / n) + B.A.cof 0 0 * (U' ((k + s) / n) * (1 / n)) = 0
        linear_combination (1 / n : ℝ) * h1
      · show B.A.cof 0 0 * (Q' ((k + s) / n) * (1 / n)) = B.A.vol / n * B.f fun _ => (k + s) / n
        linear_combination (1 / n : ℝ) * h2
  have h2 : (fun (l : Fin (0 + 1)) (z : Fin (0 + 1) → ℝ) => q l fun _ => (k + z 0) / n) = fun _ z => q 0 fun _ => (k + z 0) / n := funext fun l => by
    rw [show l = 0 from Subsingleton.elim (α := Fin 1) _ _]
  rw [h2]
  exact h1

/-- The edges of a network are divided into `n` parts: `N E t` is the hypernode at the distance `t` (in parts) from the beginning of edge `E`, `ι` gives the new number of an old hypernode. -/
structure Subdivides (n : Nat) {nE nN nE' nN' : Nat} (nodes : Fin nE → Fin (2 * (0 + 1)) → Fin nN) (nodes' : Fin nE' → Fin (2 * (0 + 1)) → Fin nN') (coarse : Fin nE' → Fin nE) (pos : Fin nE' → Fin n)
    (N : Fin nE → Nat → Fin nN') (ι : Fin nN → Fin nN') : Prop where
  bij : Function.Bijective fun e' => (coarse e', pos e')
  node : ∀ e' f, nodes' e' f = N (coarse e') ((pos e').1 + f.1)
  first : ∀ E, N E 0 = ι (nodes E 0)
  last : ∀ E, N E n = ι (nodes E 1)
  inj : Function.Injective ι
  inside : ∀ E t E' t', 0 < t → t < n → 0 < t' → t' < n → N E t = N E' t' → E = E' ∧ t = t'
  apart : ∀ E t v, 0 < t → t < n → N E t ≠ ι v
  onto : ∀ v', (∃ v, v' = ι v) ∨ ∃ E t, 0 < t ∧ t < n ∧ v' = N E t

namespace Subdivides
variable {n nE nN nE' nN' : Nat} {nodes : Fin nE → Fin (2 * (0 + 1)) → Fin nN} {nodes' : Fin nE' → Fin (2 * (0 + 1)) → Fin nN'} {coarse : Fin nE' → Fin nE} {pos : Fin nE' → Fin n}
  {N : Fin nE → Nat → Fin nN'} {ι : Fin nN → Fin nN'} (hS : Subdivides n nodes nodes' coarse pos N ι)

include hS

theorem chain (E : Fin nE) : ∀ t, t ≤ n → ReflTransGen (Adjacent nodes') (N E 0) (N E t) ∧ ReflTransGen (Adjacent nodes') (N E t) (N E 0) := by
  intro t
  induction t with
  | zero => exact fun _ => ⟨.refl, .refl⟩
  | succ t ih =>
    intro ht
    obtain ⟨e', he'⟩ := hS.bij.2 (E, ⟨t, ht⟩)
    have h1 : coarse e' = E := congrArg Prod.fst he'
    have h2 : pos e' = ⟨t, ht⟩ := congrArg Prod.snd he'
    have h3 : nodes' e' 0 = N E t := by rw [hS.node, h1, h2]; rfl
    have h4 : nodes' e' 1 = N E (t + 1) := by rw [hS.node, h1, h2]; rfl
    have h5 := ih (Nat.le_of_succ_le ht)
    exact ⟨h5.1.tail ⟨e', 0, 1, h3, h4⟩, .head ⟨e', 1, 0, h4, h3⟩ h5.2⟩

theorem anchored {D : Fin nN → Prop} (hD : Anchored nodes D) : Anchored nodes' fun v' => ∃ v, v' = ι v ∧ D v := by
  have hface : ∀ E f, ReflTransGen (Adjacent nodes') (N E 0) (ι (nodes E f)) ∧ ReflTransGen (Adjacent nodes') (ι (nodes E f)) (N E 0) := fun E f => by
    rcases face_cases f with rfl | rfl
    · rw [← hS.first]
      exact ⟨.refl, .refl⟩
    · rw [← hS.last]
      exact hS.chain E n le_rfl
  have hstep : ∀ a b, Adjacent nodes a b → ReflTransGen (Adjacent nodes') (ι a) (ι b) := by
    rintro a b ⟨E, f, g, rfl, rfl⟩
    exact (hface E f).2.trans (hface E g).1
  have hold : ∀ v, ∃ w, (∃ v, w = ι v ∧ D v) ∧ ReflTransGen (Adjacent nodes') w (ι v) := fun v => by
    obtain ⟨w, hw, hc⟩ := hD v
    refine ⟨ι w, ⟨w, rfl, hw⟩, ?_⟩
    induction hc with
    | refl => exact .refl
    | tail _ h ih => exact ih.trans (hstep _ _ h)
  intro v'
  rcases hS.onto v' with ⟨v, rfl⟩ | ⟨E, t, _, ht, rfl⟩
  · exact hold v
  · obtain ⟨w, hw, hc⟩ := hold (nodes E 0)
    refine ⟨w, hw, ?_⟩
    rw [← hS.first] at hc
    exact hc.trans (hS.chain E t ht.le).1

open Classical in
/-- The solution on the refined network. -/
theorem solution {B : Fin nE → Data 0} (hB : ∀ E, (B E).Admissible) {D : Fin nN → Prop} {q : Fin nE → Fin (0 + 1) → (Fin (0 + 1) → ℝ) → ℝ} {u : Fin nE → (Fin (0 + 1) → ℝ) → ℝ} {w : Fin nN → (Fin 0 → ℝ) → ℝ}
    (h : IsClassicalSolution B nodes D q u w) (hn : 0 < n) :
    ∃ w' : Fin nN' → (Fin 0 → ℝ) → ℝ, (∀ v, w' (ι v) = w v) ∧ IsClassicalSolution (fun e' => (B (coarse e')).part n (pos e')) nodes' (fun v' => ∃ v, v' = ι v ∧ D v)
      (fun e' l z => q (coarse e') l fun _ => ((pos e').1 + z 0) / n) (fun e' z => u (coarse e') fun _ => ((pos e').1 + z 0) / n) w' := by
  have hn' : (n : ℝ) ≠ 0 := (Nat.cast_pos.mpr hn).ne'
  have hD' : ∀ v, (∃ v₀, ι v = ι v₀ ∧ D v₀) ↔ D v := fun v => ⟨fun ⟨v₀, h1, h2⟩ => by rw [hS.inj h1]; exact h2, fun h => ⟨v, rfl, h⟩⟩
  let w' : Fin nN' → (Fin 0 → ℝ) → ℝ := fun v' y => if h : ∃ v, v' = ι v then w h.choose y else if h : ∃ x : Fin nE × Nat, 0 < x.2 ∧ x.2 < n ∧ v' = N x.1 x.2 then u h.choose.1 fun _ => h.choose.2 / n else 0
  have hold : ∀ v, w' (ι v) = w v := fun v => funext fun y => by
    have h1 : ∃ v₀, ι v = ι v₀ := ⟨v, rfl⟩
    simp only [w', dif_pos h1]
    rw [← hS.inj h1.choose_spec]
  have hnew : ∀ E t, 0 < t → t < n → ∀ y, w' (N E t) y = u E fun _ => t / n := fun E t h0 ht y => by
    have h1 : ¬ ∃ v, N E t = ι v := fun ⟨v, hv⟩ => hS.apart E t v h0 ht hv
    have h2 : ∃ x : Fin nE × Nat, 0 < x.2 ∧ x.2 < n ∧ N E t = N x.1 x.2 := ⟨(E, t), h0, ht, rfl⟩
    simp only [w', dif_neg h1, dif_pos h2]
    obtain ⟨h3, h4, h5⟩ := h2.choose_spec
    obtain ⟨h6, h7⟩ := hS.inside _ _ _ _ h0 ht h3 h4 h5
    rw [← h6, ← h7]
  have hend : ∀ E (f : Fin (2 * (0 + 1))) y, u E (fun _ => (f.1 : ℝ)) = u E (facePoint f y) := fun E f y => by rw [facePoint_line]
  have v0 : ((0 : Fin (2 * (0 + 1))).1 : ℝ) = 0 := Nat.cast_zero
  have v1 : ((1 : Fin (2 * (0 + 1))).1 : ℝ) = 1 := Nat.cast_one
  -- the position of a face
  have hpos : ∀ e' (f : Fin (2 * (0 + 1))) (y : Fin 0 → ℝ), (((pos e').1 : ℝ) + facePoint f y 0) / n = (((pos e').1 + f.1 : Nat) : ℝ) / n := fun e' f y => by
    rw [facePoint_zero one_pos]
    push_cast
    rfl
  have hcases : ∀ e' (f : Fin (2 * (0 + 1))), ((pos e').1 + f.1 = 0 ∧ f = 0) ∨ ((pos e').1 + f.1 = n ∧ f = 1) ∨ (0 < (pos e').1 + f.1 ∧ (pos e').1 + f.1 < n) := fun e' f => by
    have := (pos e').2
    rcases face_cases f with rfl | rfl
    · have : (0 : Fin (2 * (0 + 1))).1 = 0 := rfl
      by_cases h0 : (pos e').1 = 0
      · exact .inl ⟨by omega, rfl⟩
      · exact .inr (.inr ⟨by omega, by omega⟩)
    · have : (1 : Fin (2 * (0 + 1))).1 = 1 := rfl
      by_cases h0 : (pos e').1 + 1 = n
      · exact .inr (.inl ⟨by omega, rfl⟩)
      · exact .inr (.inr ⟨by omega, by omega⟩)
  refine ⟨w', hold, fun e' => part_solves (h.equation (coarse e')) (pos e').2, fun e' f hf y hy => ?_, fun e' f hf y hy => ?_, fun v' hv' y hy => ?_⟩
  · simp only [hpos]
    rw [hS.node] at hf ⊢
    rcases hcases e' f with ⟨h1, rfl⟩ | ⟨h1, rfl⟩ | ⟨h1, h2⟩
    · rw [h1, hS.first, hD'] at hf
      rw [h1, hS.first, hold, Nat.cast_zero, zero_div, ← v0, hend _ _ y]
      exact h.continuous _ _ hf y hy
    · rw [h1, hS.last, hD'] at hf
      rw [h1, hS.last, hold, div_self hn', ← v1, hend _ _ y]
      exact h.continuous _ _ hf y hy
    · rw [hnew _ _ h1 h2]
  · simp only [hpos]
    show _ = (B (coarse e')).g fun _ => ((pos e').1 + facePoint f y 0) / n
    rw [hpos]
    rw [hS.node] at hf
    rcases hcases e' f with ⟨h1, rfl⟩ | ⟨h1, rfl⟩ | ⟨h1, h2⟩
    · rw [h1, hS.first, hD'] at hf
      rw [h1, Nat.cast_zero, zero_div, ← v0, hend _ _ y, h.dirichlet _ _ hf y hy, facePoint_line]
    · rw [h1, hS.last, hD'] at hf
      rw [h1, div_self hn', ← v1, hend _ _ y, h.dirichlet _ _ hf y hy, facePoint_line]
    · obtain ⟨v, hv, _⟩ := hf
      exact absurd hv (hS.apart _ _ _ h1 h2)
  · -- fluxes along an edge
    let ψ : Fin nE → Nat → ℝ := fun E t => if N E t = v' then (B E).A.cof 0 0 * q E 0 fun _ => t / n else 0
    have hterm : ∀ e', ∑ f, (if nodes' e' f = v' then ((B (coarse e')).part n (pos e')).A.area f * ∑ k, ((B (coarse e')).part n (pos e')).A.normal f k * q (coarse e') k (fun _ => ((pos e').1 + facePoint f y 0) / n) else 0) =
        ψ (coarse e') ((pos e').1 + 1) - ψ (coarse e') (pos e').1 := fun e' => by
      have h1 : ∀ f : Fin (2 * (0 + 1)), ((B (coarse e')).part n (pos e')).A.area f * ∑ k, ((B (coarse e')).part n (pos e')).A.normal f k * q (coarse e') k (fun _ => ((pos e').1 + facePoint f y 0) / n) =
          Spec.normal f * ((B (coarse e')).A.cof 0 0 * q (coarse e') 0 fun _ => (((pos e').1 + f.1 : Nat) : ℝ) / n) := fun f => by
        rw [sum_line, hpos, ← mul_assoc, end_normal (part_admissible (hB _) hn _), mul_assoc]
        rfl
      rw [sum_ends, h1, h1, hS.node, hS.node]
      have n0 : Spec.normal (dim := 0 + 1) (K := ℝ) 0 = -1 := by simp [Spec.normal]
      have n1 : Spec.normal (dim := 0 + 1) (K := ℝ) 1 = 1 := by simp [Spec.normal]
      rw [n0, n1, show (0 : Fin (2 * (0 + 1))).1 = 0 from rfl, show (1 : Fin (2 * (0 + 1))).1 = 1 from rfl, Nat.add_zero]
      simp only [ψ]
      split <;> split <;> ring
    have hsum : ∑ e', (ψ (coarse e') ((pos e').1 + 1) - ψ (coarse e') (pos e').1) = ∑ E, (ψ E n - ψ E 0) := by
      refine ((Equiv.ofBijective _ hS.bij).sum_comp fun x : Fin nE × Fin n => ψ x.1 (x.2.1 + 1) - ψ x.1 x.2.1).trans ?_
      rw [Fintype.sum_prod_type]
      refine sum_congr rfl fun E _ => ?_
      rw [Fin.sum_univ_eq_sum_range (fun t => ψ E (t + 1) - ψ E t) n, sum_range_sub]
    rw [sum_congr rfl fun e' _ => hterm e', hsum]
    by_cases hv : ∃ v, v' = ι v
    · obtain ⟨v, rfl⟩ := hv
      rw [hD'] at hv'
      refine Eq.trans (sum_congr rfl fun E _ => ?_) (h.balance v hv' y hy)
      have h1 : ∀ f : Fin (2 * (0 + 1)), (B E).A.area f * ∑ k, (B E).A.normal f k * q E k (facePoint f y) = Spec.normal f * ((B E).A.cof 0 0 * q E 0 fun _ => (f.1 : ℝ)) := fun f => by
        rw [sum_line, facePoint_line, ← mul_assoc, end_normal (hB _), mul_assoc]
      rw [sum_ends, h1, h1]
      have n0 : Spec.normal (dim := 0 + 1) (K := ℝ) 0 = -1 := by simp [Spec.normal]
      have n1 : Spec.normal (dim := 0 + 1) (K := ℝ) 1 = 1 := by simp [Spec.normal]
      simp only [ψ]
      rw [hS.first, hS.last, n0, n1, v0, v1, div_self hn', Nat.cast_zero, zero_div]
      simp only [hS.inj.eq_iff]
      split <;> split <;> ring
    · refine sum_eq_zero fun E _ => ?_
      simp only [ψ]
      rw [hS.first, hS.last, if_neg fun h => hv ⟨_, h.symm⟩, if_neg fun h => hv ⟨_, h.symm⟩, sub_zero]

end Subdivides

section File
variable {T : Tpcc} (hT : T.Lawful) {dom : DomainTopo 0} (hdom : dom.Consistent) {n : Nat} (hfit : RefinedFits dom n)

/-- The hypernodes of the edges of a file. -/
def fileNodes (E : Fin dom.n_hyEdges) (f : Fin (2 * (0 + 1))) : Fin dom.n_hyNodes := ⟨fileCoarse dom E f, fileCoarse_lt hdom E.2 f⟩

omit hdom in
theorem file_fits (hfit : RefinedFits dom n) : dom.n_hyEdges * n ^ (0 + 1) < U32 ∧ dom.n_hyNodes * n ^ 0 + dom.n_hyEdges * nInterior 0 n < U32 := by
  refine ⟨by simpa using hfit.edges, ?_⟩
  have := hfit.nodes
  simpa [nInterior] using this

/-- A point of the reference interval as an element of the library. -/
def point (t : Nat) : Elem (0 + 1) 0 := ⟨fun j => j.elim0, fun _ => t⟩

theorem point_belongs (t : Nat) : Belongs T (refFaces 0 n) (point t) ↔ 0 < t ∧ t < n := by
  constructor
  · intro h
    exact h.flat 0 fun j => j.elim0
  · intro h
    exact ⟨fun j => j.elim0, fun j => j.elim0, fun _ _ => h⟩

theorem elem_point (e : Elem (0 + 1) 0) : e = point (e.coord 0) := by
  cases e with
  | mk along coord =>
    unfold point
    congr 1
    · exact funext fun j => j.elim0
    · exact funext fun k => congrArg coord (Subsingleton.elim (α := Fin 1) _ _)

theorem facet_point (r : Elem (0 + 1) (0 + 1)) (i : Fin (2 * (0 + 1))) : r.facet i = point (faceCoord r i) := by
  rw [elem_point (r.facet i)]
  unfold Elem.facet faceCoord
  simp only
  rw [show (0 : Fin (0 + 1)) = r.along (Elem.facetDir i) from Subsingleton.elim (α := Fin 1) _ _, Function.update_self]

include hT hdom hfit in
theorem file_subdivides (m : Mode) {nB : Nat} (G : HyGraph (0 + 1) nB) (hB : (dom.n_hyNodes + dom.n_hyEdges * (n - 1)) * nB < U32) (hG : DescribedBy G ((Topology.File.mk' T dom).set_refinement T n).n_hyEdges ((Topology.File.mk' T dom).set_refinement T n).n_hyNodes
    (((Topology.File.mk' T dom).set_refinement T n).get_hyNode_indices m T)) :
    ∃ (nodes' : Fin G.n_hyEdges → Fin (2 * (0 + 1)) → Fin G.n_hyNodes) (coarse : Fin G.n_hyEdges → Fin dom.n_hyEdges) (pos : Fin G.n_hyEdges → Fin n) (N : Fin dom.n_hyEdges → Nat → Fin G.n_hyNodes)
      (ι : Fin dom.n_hyNodes → Fin G.n_hyNodes), G.WF nodes' ∧ Subdivides n (fileNodes hdom) nodes' coarse pos N ι ∧ (∀ e', (coarse e').1 = e'.1 / n) ∧ (∀ e', (pos e').1 = refPos T 0 n e' 0) ∧ ∀ v, (ι v).1 = v.1 := by
  obtain ⟨hE, hN⟩ := file_fits hfit
  have hn := hfit.pos
  have hc := C24_file_counts (n := n) hT hE hN
  have hsize : T.size (refFaces 0 n) = n - 1 := by rw [size_refFaces hT]; simp
  have hedges : G.n_hyEdges = dom.n_hyEdges * n := by rw [hG.edges, hc.1]; simp
  have hnodes : G.n_hyNodes = dom.n_hyNodes + dom.n_hyEdges * (n - 1) := by rw [hG.nodes, hc.2]; simp
  have hdiv : ∀ e : Fin G.n_hyEdges, e.1 / n < dom.n_hyEdges := fun e => (Nat.div_lt_iff_lt_mul hn).mpr (hedges ▸ e.2)
  let coarse : Fin G.n_hyEdges → Fin dom.n_hyEdges := fun e => ⟨e.1 / n, hdiv e⟩
  let pos : Fin G.n_hyEdges → Fin n := fun e => ⟨refPos T 0 n e 0, refPos_lt hT hn e 0⟩
  let ι : Fin dom.n_hyNodes → Fin G.n_hyNodes := fun v => ⟨v.1, by rw [hnodes]; exact v.2.trans_le (Nat.le_add_right _ _)⟩
  have hidx : ∀ t, 0 < t → t < n → T.index (refFaces 0 n) (point t) < n - 1 := fun t h0 ht => by
    rw [← hsize]
    exact hT.index_lt _ _ ((point_belongs t).mpr ⟨h0, ht⟩)
  have hlt : ∀ (E : Fin dom.n_hyEdges) i, i < n - 1 → dom.n_hyNodes + (n - 1) * E.1 + i < G.n_hyNodes := fun E i hi => by
    rw [hnodes]
    have h1 : (n - 1) * E.1 + (n - 1) ≤ dom.n_hyEdges * (n - 1) := by
      rw [← Nat.mul_succ, Nat.mul_comm]
      exact Nat.mul_le_mul_right _ E.2
    omega
  let N : Fin dom.n_hyEdges → Nat → Fin G.n_hyNodes := fun E t => if t = 0 then ι (fileNodes hdom E 0) else if t = n then ι (fileNodes hdom E 1) else
    if h : T.index (refFaces 0 n) (point t) < n - 1 then ⟨dom.n_hyNodes + (n - 1) * E.1 + T.index (refFaces 0 n) (point t), hlt E _ h⟩ else ι (fileNodes hdom E 0)
  have hin : ∀ E t, 0 < t → t < n → (N E t).1 = dom.n_hyNodes + (n - 1) * E.1 + T.index (refFaces 0 n) (point t) := fun E t h0 ht => by
    simp only [N]
    rw [if_neg h0.ne', if_neg ht.ne, dif_pos (hidx t h0 ht)]
  have hget : ∀ (e : Fin G.n_hyEdges) (f : Fin (2 * (0 + 1))), G.hyNodes e f = (N (coarse e) ((pos e).1 + f.1)).1 := fun e f => by
    have he : e.1 < dom.n_hyEdges * n ^ (0 + 1) := e.2.trans_eq (hedges.trans (by simp))
    have h1 := hG.indices e.1 (hG.edges ▸ e.2)
    rw [file_nodes_spec hT hdom hn hE hN m he] at h1
    injection h1 with h1
    have h2 := congrFun h1 f
    rw [← h2]
    have hfc : faceCoord (subElem T 0 n e) f = (pos e).1 + f.1 := by
      unfold faceCoord
      rcases face_cases f with rfl | rfl <;> rfl
    have hsl : T.index_in_slice (refFaces 0 n) ((subElem T 0 n e).facet f) = 0 := by
      have := slice_facet_lt hT (subElem_belongs (d := 0) hT hn e) f
      rw [pow_zero] at this
      omega
    have hpe := (pos e).2
    have hq : e.1 / n ^ (0 + 1) = (coarse e).1 := by simp [coarse]
    unfold nodeVal
    rw [hfc, hsl, hq, facet_point, hfc, hsize]
    simp only [pow_zero, one_mul, mul_one, add_zero]
    rcases face_cases f with rfl | rfl
    · have z0 : (0 : Fin (2 * (0 + 1))).1 = 0 := rfl
      by_cases h0 : (pos e).1 = 0
      · rw [if_pos (.inl (by omega)), z0, h0]
        simp only [N, if_true]
        rfl
      · rw [if_neg (by omega), hin _ _ (by omega) (by omega)]
    · have z1 : (1 : Fin (2 * (0 + 1))).1 = 1 := rfl
      by_cases h0 : (pos e).1 + 1 = n
      · rw [if_pos (.inr (by omega)), z1, h0]
        simp only [N]
        rw [if_neg hn.ne', if_pos trivial]
        rfl
      · rw [if_neg (by omega), hin _ _ (by omega) (by omega)]
  have hinj : ∀ e e' : Fin G.n_hyEdges, coarse e = coarse e' → pos e = pos e' → e = e' := fun e e' h1 h2 => by
    refine Fin.ext (index_unique (d := 0) hT hn ?_ (funext fun j => ?_))
    · have h3 : e.1 / n = e'.1 / n := congrArg Fin.val h1
      have h4 : n ^ (0 + 1) = n := by simp
      exact (congrArg (e.1 / ·) h4).trans (h3.trans (congrArg (e'.1 / ·) h4.symm))
    · rw [show j = 0 from Subsingleton.elim (α := Fin 1) _ _]
      exact congrArg Fin.val h2
  refine ⟨fun e f => N (coarse e) ((pos e).1 + f.1), coarse, pos, N, ι, ⟨hget, ?_⟩, ⟨?_, fun _ _ => rfl, fun E => ?_, fun E => ?_, fun v v' h => Fin.ext (by have h1 := congrArg Fin.val h; exact h1), ?_, ?_, ?_⟩, fun _ => rfl, fun _ => rfl, fun _ => rfl⟩
  · rw [hnodes]
    exact hB
  · rw [Fintype.bijective_iff_injective_and_card]
    refine ⟨fun e e' h => hinj e e' (congrArg Prod.fst h) (congrArg Prod.snd h), ?_⟩
    rw [Fintype.card_prod, Fintype.card_fin, Fintype.card_fin, Fintype.card_fin, hedges]
  · simp only [N, if_true]
  · simp only [N]
    rw [if_neg hn.ne', if_pos trivial]
  · intro E t E' t' h0 ht h0' ht' h
    have h1 := congrArg Fin.val h
    rw [hin E t h0 ht, hin E' t' h0' ht'] at h1
    have l1 := hidx t h0 ht
    have l2 := hidx t' h0' ht'
    have h2 : E.1 = E'.1 := by
      have e1 : ((n - 1) * E.1 + T.index (refFaces 0 n) (point t)) / (n - 1) = E.1 := by
        rw [Nat.mul_add_div (by omega), Nat.div_eq_of_lt l1, Nat.add_zero]
      have e2 : ((n - 1) * E'.1 + T.index (refFaces 0 n) (point t')) / (n - 1) = E'.1 := by
        rw [Nat.mul_add_div (by omega), Nat.div_eq_of_lt l2, Nat.add_zero]
      rw [← e1, ← e2]
      congr 1
      omega
    refine ⟨Fin.ext h2, ?_⟩
    rw [h2] at h1
    have h3 : T.index (refFaces 0 n) (point t) = T.index (refFaces 0 n) (point t') := by omega
    have h4 := congrArg (T.elem (refFaces 0 n)) h3
    rw [hT.elem_index _ _ ((point_belongs t).mpr ⟨h0, ht⟩), hT.elem_index _ _ ((point_belongs t').mpr ⟨h0', ht'⟩)] at h4
    exact congrFun (congrArg Elem.coord h4) 0
  · intro E t v h0 ht h
    have h1 := congrArg Fin.val h
    rw [hin E t h0 ht] at h1
    have : (ι v).1 = v.1 := rfl
    have := v.2
    omega
  · intro v'
    by_cases hv : v'.1 < dom.n_hyNodes
    · exact .inl ⟨⟨v'.1, hv⟩, rfl⟩
    · have hv' := v'.2.trans_eq hnodes
      have hpos : 0 < n - 1 := Nat.pos_of_ne_zero fun h => by rw [h] at hv'; omega
      have hx : (v'.1 - dom.n_hyNodes) / (n - 1) < dom.n_hyEdges := (Nat.div_lt_iff_lt_mul hpos).mpr (by omega)
      have hr : (v'.1 - dom.n_hyNodes) % (n - 1) < T.size (refFaces 0 n) := by rw [hsize]; exact Nat.mod_lt _ hpos
      have hb := hT.elem_belongs (refFaces 0 n) _ hr
      have hi := hT.index_elem (refFaces 0 n) _ hr
      rw [elem_point (T.elem (refFaces 0 n) _)] at hb hi
      obtain ⟨h0, ht⟩ := (point_belongs _).mp hb
      refine .inr ⟨⟨_, hx⟩, _, h0, ht, Fin.ext ?_⟩
      rw [hin _ _ h0 ht, hi, add_assoc, Nat.div_add_mod]
      omega

end File

theorem fileNodes_eq {dom : DomainTopo 0} (hdom : dom.Consistent) (e : Fin dom.n_hyEdges) (h : e.1 < dom.hyNodes_hyEdge.length) (f : Fin (2 * (0 + 1))) : (fileNodes hdom e f).1 = dom.hyNodes_hyEdge[e.1] f := by
  show fileCoarse dom e f = _
  unfold fileCoarse
  rw [List.getD_eq_getElem?_getD, List.getElem?_eq_getElem h, Option.getD_some]

theorem file_anchored {dom : DomainTopo 0} {L : List Nat} {DN : Nat → Prop} (hfile : DirichletFile dom L DN) : Anchored (fileNodes hfile.consistent) fun v => DN v.1 := by
  intro v
  obtain ⟨w, hw, hDw, hc⟩ := hfile.anchored v.1 v.2
  have key : ∀ b, ReflTransGen (LinkedInFile dom) w b → ∃ hb : b < dom.n_hyNodes, ReflTransGen (Adjacent (fileNodes hfile.consistent)) ⟨w, hw⟩ ⟨b, hb⟩ := fun b hb => by
    induction hb with
    | refl => exact ⟨hw, .refl⟩
    | tail _ h ih =>
      obtain ⟨nodes, hmem, f, g, rfl, rfl⟩ := h
      obtain ⟨i, hi, rfl⟩ := List.getElem_of_mem hmem
      have hE : i < dom.n_hyEdges := hfile.consistent.nodes_length ▸ hi
      obtain ⟨_, ih⟩ := ih
      refine ⟨hfile.consistent.nodes_lt _ hmem g, ih.tail ⟨⟨i, hE⟩, f, g, Fin.ext (fileNodes_eq _ ⟨i, hE⟩ hi f), Fin.ext (fileNodes_eq _ ⟨i, hE⟩ hi g)⟩⟩
  obtain ⟨_, h⟩ := key v.1 hc
  exact ⟨⟨w, hw⟩, hDw, h⟩

/-- What the node descriptor of the refined file says about a face is whether it belongs to a hypernode of the file where values are prescribed. -/
theorem face_types {T : Tpcc} (hT : T.Lawful) {dom : DomainTopo 0} {L : List Nat} {DN : Nat → Prop} (hfile : DirichletFile dom L DN) {m : Mode} {n : Nat} (hfit : RefinedFits dom n) {td : Nat → Fin (2 * (0 + 1)) → Nat}
    (htd : ∀ e, e < dom.n_hyEdges * n → (NodeDescriptor.File.ofTopology ((Topology.File.mk' T dom).set_refinement T n)).get_hyFace_types m T e = .ok (td e))
    {nE' nN' : Nat} {nodes' : Fin nE' → Fin (2 * (0 + 1)) → Fin nN'} {coarse : Fin nE' → Fin dom.n_hyEdges} {pos : Fin nE' → Fin n} {N : Fin dom.n_hyEdges → Nat → Fin nN'}
    {ι : Fin dom.n_hyNodes → Fin nN'} (hS : Subdivides n (fileNodes hfile.consistent) nodes' coarse pos N ι) (hco : ∀ e', (coarse e').1 = e'.1 / n) (hpo : ∀ e', (pos e').1 = refPos T 0 n e' 0)
    (e : Fin nE') (f : Fin (2 * (0 + 1))) : td e f ∈ L ↔ ∃ v, nodes' e f = ι v ∧ DN v.1 := by
  have hn := hfit.pos
  have hpow : n ^ (0 + 1) = n := by simp
  have hE := (file_fits hfit).1
  have he : e.1 < dom.n_hyEdges * n := by
    have h1 := (coarse e).2
    rw [hco] at h1
    exact (Nat.div_lt_iff_lt_mul hn).mp h1
  have hl : e.1 / n < dom.hyFaces_hyEdge.length := by rw [hfile.consistent.types_length, ← hco]; exact (coarse e).2
  have hl' : e.1 / n < dom.hyNodes_hyEdge.length := by rw [hfile.consistent.nodes_length, ← hco]; exact (coarse e).2
  obtain ⟨types, h1, h2, h3⟩ := C28_file (n := n) hT hfile.consistent hn hE m e (by rw [show n ^ (0 + 1) = n from hpow]; exact he) dom.hyFaces_hyEdge[e.1 / n]
    ((congrArg (fun k => dom.hyFaces_hyEdge[e.1 / k]?) hpow).trans (List.getElem?_eq_getElem hl))
  rw [htd e he] at h1
  injection h1 with h1
  have h4 : td e f = types f := congrFun h1 f
  have hty := hfile.types (e.1 / n) _ _ (List.getElem?_eq_getElem hl') (List.getElem?_eq_getElem hl) f
  have hcn : ∀ g, dom.hyNodes_hyEdge[e.1 / n] g = (fileNodes hfile.consistent (coarse e) g).1 := fun g => by
    have key : ∀ k (hk : k < dom.hyNodes_hyEdge.length), k = e.1 / n → dom.hyNodes_hyEdge[e.1 / n] g = dom.hyNodes_hyEdge[k] g := fun k hk h => by subst h; rfl
    rw [fileNodes_eq _ _ (by rw [hco]; exact hl'), key _ _ (hco e)]
  rw [h4]
  have hsub := fun g => subFace_subset_iff (d := 0) hn (refPos_lt hT hn e) f g
  have hdir : Elem.facetDir f = (0 : Fin (0 + 1)) := Subsingleton.elim (α := Fin 1) _ _
  simp only [hdir, ← hpo] at hsub
  have hmod : f.1 % 2 = f.1 := Nat.mod_eq_of_lt f.2
  have hpe := (pos e).2
  rw [hS.node]
  by_cases hc : (pos e).1 + f.1 = 0 ∨ (pos e).1 + f.1 = n
  · rw [h2 f f ((hsub f).mpr ⟨rfl, by rw [hmod]; exact hc⟩), hty, hcn]
    have hN : N (coarse e) ((pos e).1 + f.1) = ι (fileNodes hfile.consistent (coarse e) f) := by
      rcases face_cases f with rfl | rfl
      · have z0 : (0 : Fin (2 * (0 + 1))).1 = 0 := rfl
        rw [show (pos e).1 + (0 : Fin (2 * (0 + 1))).1 = 0 by omega, hS.first]
      · have z0 : (1 : Fin (2 * (0 + 1))).1 = 1 := rfl
        rw [show (pos e).1 + (1 : Fin (2 * (0 + 1))).1 = n by omega, hS.last]
    rw [hN]
    exact ⟨fun h => ⟨_, rfl, h⟩, fun ⟨v, h5, h6⟩ => by rw [hS.inj h5]; exact h6⟩
  · rw [h3 f fun g hg => hc (by have := ((hsub g).mp hg).2; rwa [hmod] at this)]
    have hf2 := f.2
    refine iff_of_false hfile.zero fun ⟨v, h5, _⟩ => hS.apart _ _ v (by omega) (by omega) h5

end HyperHDG.Estimate
