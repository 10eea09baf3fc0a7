import Verif.Proofs.NetworkRefinement

/-!
# Property C104: diffusion problems on networks are solvable, and refinement does not change the values at the nodes
-/

namespace HyperHDG.Estimate

open Finset Spec Matrix HyGraph Diffusion EllipticProgram Exact Polynomial HyperHDG.Topology Relation

/-- **C104** (existence).  A diffusion problem on a network where each node is connected to a Dirichlet node, with continuous data, has an exact solution. -/
theorem C104_exists {nE nN : Nat} (B : Fin nE → Data 0) (hB : ∀ e, (B e).Admissible) (hf : ∀ e, Continuous (B e).f) (nodes : Fin nE → Fin (2 * (0 + 1)) → Fin nN) (D : Fin nN → Prop) (hcon : Anchored nodes D) :
    ∃ (q : Fin nE → Fin (0 + 1) → (Fin (0 + 1) → ℝ) → ℝ) (u : Fin nE → (Fin (0 + 1) → ℝ) → ℝ) (w : Fin nN → (Fin 0 → ℝ) → ℝ), IsClassicalSolution B nodes D q u w :=
  network_exists B hB hf nodes D hcon

/-- **C104** (uniqueness).  There is only one: its values at the nodes, and its values and fluxes on the edges. -/
theorem C104_unique {nE nN : Nat} (B : Fin nE → Data 0) (hB : ∀ e, (B e).Admissible) (hf : ∀ e, Continuous (B e).f) (nodes : Fin nE → Fin (2 * (0 + 1)) → Fin nN) (D : Fin nN → Prop) (hcon : Anchored nodes D)
    {q q' : Fin nE → Fin (0 + 1) → (Fin (0 + 1) → ℝ) → ℝ} {u u' : Fin nE → (Fin (0 + 1) → ℝ) → ℝ} {w w' : Fin nN → (Fin 0 → ℝ) → ℝ}
    (h : IsClassicalSolution B nodes D q u w) (h' : IsClassicalSolution B nodes D q' u' w') :
    (∀ v, ¬ D v → w v = w' v) ∧ ∀ e, ∀ z ∈ cube (0 + 1), u e z = u' e z ∧ q e 0 z = q' e 0 z :=
  network_unique B hB hf nodes D hcon h h'

/-- **C104** (refinement).  A diffusion problem on the network of a domain file where each node is connected to a Dirichlet node, with continuous data, has an exact solution `w` (at the nodes of the file), `u` (on the edges).  For
every refinement `n` of the edges, every degree `p` which exceeds the degree of the inverse diffusion coefficient, every positive `tau` and every solver of the local systems: there is exactly one vector with residual zero, and it
consists of the values of the same exact solution, at the nodes of the file and at those in the interior of edges. -/
theorem C104_refined {T : Tpcc} (hT : T.Lawful) {dom : DomainTopo 0} {L : List Nat} {DN : Nat → Prop} (hfile : DirichletFile dom L DN) (B : Nat → Data 0) (hB : ∀ e, (B e).Admissible) (harea : ∀ e f, (B e).A.area f = 1)
    (hf : ∀ e, Continuous (B e).f) : ∃ (q u : Nat → ℝ → ℝ) (w : Nat → ℝ), SolvesOnFile dom DN B q u w ∧
    ∀ (n : Nat) (_ : RefinedFits dom n) (p : Nat) (P : Fin (p + 1) → ℝ[X]) (_ : OrthonormalPolys p P) (_ : ∀ e, PolynomialCoefficient p (B e)) (m : Mode)
      (gesv : Gesv (((0 + 1) + 1) * (p + 1) ^ (0 + 1)) 1 ℝ) (_ : GesvSpec gesv) (tau : ℝ) (_ : 0 < tau) (time : ℝ) (G : HyGraph (0 + 1) ((p + 1) ^ 0)) (E : Nat → Edge (0 + 1) ((p + 1) ^ (0 + 1)) ℝ)
      (_ : RefinedNetwork m T dom L B time n P G E) (old0 new0 : LocDofs (0 + 1) ((p + 1) ^ 0) ℝ),
      ∃ x : Fin (G.n_hyNodes * (p + 1) ^ 0) → ℝ,
        (∀ y, (VanishesAt (fun v : Fin G.n_hyNodes => v.1 < dom.n_hyNodes ∧ DN v.1) y ∧
          (Elliptic.mk' G).apply m (localResidual m gesv tau E time) old0 new0 (List.ofFn y) = .ok (List.replicate (G.n_hyNodes * (p + 1) ^ 0) 0)) ↔ y = x) ∧
        (∀ v : Fin G.n_hyNodes, v.1 < dom.n_hyNodes → ¬ DN v.1 → ∀ j, x (dof v j) = w v.1) ∧
        ∀ (e : Nat), e < G.n_hyEdges → ∀ (f : Fin (2 * (0 + 1))) (v : Fin G.n_hyNodes), G.hyNodes e f = v.1 → ¬ (v.1 < dom.n_hyNodes ∧ DN v.1) → ∀ j, x (dof v j) = u (e / n) ((refPos T 0 n e 0 + f.1 : Nat) / n) := by
  classical
  obtain ⟨q, u, w, h⟩ := network_exists (fun e : Fin dom.n_hyEdges => B e) (fun e => hB e) (fun e => hf e) (fileNodes hfile.consistent) (fun v => DN v.1) (file_anchored hfile)
  let y0 : Fin 0 → ℝ := fun k => k.elim0
  have hpt : ∀ y : Fin 0 → ℝ, y = y0 := fun y => funext fun k => k.elim0
  refine ⟨fun e s => if he : e < dom.n_hyEdges then q ⟨e, he⟩ 0 (fun _ => s) else 0, fun e s => if he : e < dom.n_hyEdges then u ⟨e, he⟩ (fun _ => s) else 0, fun v => if hv : v < dom.n_hyNodes then w ⟨v, hv⟩ y0 else 0,
    ⟨fileNodes hfile.consistent, fun e => ?_, ?_⟩, ?_⟩
  · have he : e.1 < dom.hyNodes_hyEdge.length := by rw [hfile.consistent.nodes_length]; exact e.2
    exact ⟨he, fun f => fileNodes_eq _ e he f⟩
  · have e1 : (fun (e : Fin dom.n_hyEdges) (_ : Fin (0 + 1)) (z : Fin (0 + 1) → ℝ) => if he : e.1 < dom.n_hyEdges then q ⟨e, he⟩ 0 (fun _ => z 0) else 0) = q := by
      funext e l z
      rw [dif_pos e.2, show l = 0 from Subsingleton.elim (α := Fin 1) _ _, ← line_point z]
    have e2 : (fun (e : Fin dom.n_hyEdges) (z : Fin (0 + 1) → ℝ) => if he : e.1 < dom.n_hyEdges then u ⟨e, he⟩ (fun _ => z 0) else 0) = u := by
      funext e z
      rw [dif_pos e.2, ← line_point z]
    have e3 : (fun (v : Fin dom.n_hyNodes) (_ : Fin 0 → ℝ) => if hv : v.1 < dom.n_hyNodes then w ⟨v, hv⟩ y0 else 0) = w := by
      funext v y
      rw [dif_pos v.2, hpt y]
    rw [e1, e2, e3]
    exact h
  · intro n hfit p P hP ha m gesv hg tau ht time G E hR old0 new0
    obtain ⟨nodes', coarse, pos, N, ι, hwf, hS, hco, hpo, hι⟩ := file_subdivides hT hfile.consistent hfit m G (by rw [pow_zero, mul_one]; exact hfit.nodes) hR.graph
    obtain ⟨w', hw', h'⟩ := hS.solution (fun e : Fin dom.n_hyEdges => hB e) h hfit.pos
    have hD : ∀ (e : Fin G.n_hyEdges) (f : Fin (2 * (0 + 1))), (E e).node_descriptor f ∈ (E e).dirichlet_nodes ↔ ∃ v, nodes' e f = ι v ∧ DN v.1 := fun e f => by
      rw [hR.dirichlet]
      exact face_types hT hfile hfit hR.types hS hco hpo e f
    have hdata : (fun e' => (B (coarse e')).part n (pos e')) = fun e' : Fin G.n_hyEdges => (B (e'.1 / n)).part n (refPos T 0 n e' 0) := funext fun e' => by rw [hco, hpo]
    rw [hdata] at h'
    obtain ⟨x, h1, h2, _⟩ := nodal_core hP m gesv hg tau ht (fun e => (B (e / n)).part n (refPos T 0 n e 0)) (fun e => part_admissible (hB _) hfit.pos _) (fun e f => harea _ f) (fun e => part_coefficient (ha _) n _) time E
      hR.integrals G nodes' hwf _ hD (hS.anchored (file_anchored hfile)) _ _ w' h'
    have hDN : (fun v : Fin G.n_hyNodes => v.1 < dom.n_hyNodes ∧ DN v.1) = fun v' => ∃ v, v' = ι v ∧ DN v.1 := funext fun v' => propext
      ⟨fun ⟨a, b⟩ => ⟨⟨v'.1, a⟩, Fin.ext (hι ⟨v'.1, a⟩).symm, b⟩, fun ⟨v, a, b⟩ => by
        have : v'.1 = v.1 := by rw [a, hι]
        rw [this]
        exact ⟨v.2, b⟩⟩
    rw [hDN]
    refine ⟨x, fun y => h1 old0 new0 y, fun v hv hvD j => ?_, fun e he f v hev hvD j => ?_⟩
    · simp only [dif_pos hv]
      have hvι : v = ι ⟨v.1, hv⟩ := Fin.ext (hι ⟨v.1, hv⟩).symm
      have hnD : ¬ ∃ v₀, v = ι v₀ ∧ DN v₀.1 := fun ⟨v₀, a, b⟩ => hvD (by rw [a, hι]; exact b)
      rw [h2 v hnD j y0]
      exact congrFun ((congrArg w' hvι).trans (hw' _)) y0
    · have hnode : nodes' ⟨e, he⟩ f = v := Fin.ext ((hwf.hyNodes_eq ⟨e, he⟩ f).symm.trans hev)
      have hnD : ¬ ∃ v₀, v = ι v₀ ∧ DN v₀.1 := fun hx => hvD ((congrFun hDN v).mpr hx)
      have h3 := h'.continuous ⟨e, he⟩ f (by rw [hnode]; exact hnD) y0 fun k => k.elim0
      have hlt : e / n < dom.n_hyEdges := hco ⟨e, he⟩ ▸ (coarse ⟨e, he⟩).2
      have h4 : coarse ⟨e, he⟩ = ⟨e / n, hlt⟩ := Fin.ext (hco ⟨e, he⟩)
      simp only [dif_pos hlt]
      rw [h2 v hnD j y0, ← hnode, ← h3, facePoint_zero one_pos, hpo, h4]
      push_cast
      rfl

/-- **C104** (independence).  The solutions of the discrete problems on two refinements of a network, also with different degrees and values of `tau`, agree at the nodes of the network. -/
theorem C104_independent {T : Tpcc} (hT : T.Lawful) {dom : DomainTopo 0} {L : List Nat} {DN : Nat → Prop} (hfile : DirichletFile dom L DN) (B : Nat → Data 0) (hB : ∀ e, (B e).Admissible) (harea : ∀ e f, (B e).A.area f = 1)
    (hf : ∀ e, Continuous (B e).f) {n n' p p' : Nat} (hfit : RefinedFits dom n) (hfit' : RefinedFits dom n') {P : Fin (p + 1) → ℝ[X]} {P' : Fin (p' + 1) → ℝ[X]} (hP : OrthonormalPolys p P) (hP' : OrthonormalPolys p' P')
    (ha : ∀ e, PolynomialCoefficient p (B e)) (ha' : ∀ e, PolynomialCoefficient p' (B e)) (m m' : Mode) (gesv : Gesv (((0 + 1) + 1) * (p + 1) ^ (0 + 1)) 1 ℝ) (hg : GesvSpec gesv)
    (gesv' : Gesv (((0 + 1) + 1) * (p' + 1) ^ (0 + 1)) 1 ℝ) (hg' : GesvSpec gesv') {tau tau' : ℝ} (ht : 0 < tau) (ht' : 0 < tau') {time time' : ℝ} {G : HyGraph (0 + 1) ((p + 1) ^ 0)} {G' : HyGraph (0 + 1) ((p' + 1) ^ 0)}
    {E : Nat → Edge (0 + 1) ((p + 1) ^ (0 + 1)) ℝ} {E' : Nat → Edge (0 + 1) ((p' + 1) ^ (0 + 1)) ℝ} (hR : RefinedNetwork m T dom L B time n P G E) (hR' : RefinedNetwork m' T dom L B time' n' P' G' E')
    (old0 new0 : LocDofs (0 + 1) ((p + 1) ^ 0) ℝ) (old0' new0' : LocDofs (0 + 1) ((p' + 1) ^ 0) ℝ) (x : Fin (G.n_hyNodes * (p + 1) ^ 0) → ℝ) (x' : Fin (G'.n_hyNodes * (p' + 1) ^ 0) → ℝ)
    (hx0 : VanishesAt (fun v : Fin G.n_hyNodes => v.1 < dom.n_hyNodes ∧ DN v.1) x) (hx0' : VanishesAt (fun v : Fin G'.n_hyNodes => v.1 < dom.n_hyNodes ∧ DN v.1) x')
    (hx : (Elliptic.mk' G).apply m (localResidual m gesv tau E time) old0 new0 (List.ofFn x) = .ok (List.replicate (G.n_hyNodes * (p + 1) ^ 0) 0))
    (hx' : (Elliptic.mk' G').apply m' (localResidual m' gesv' tau' E' time') old0' new0' (List.ofFn x') = .ok (List.replicate (G'.n_hyNodes * (p' + 1) ^ 0) 0))
    (v : Fin G.n_hyNodes) (v' : Fin G'.n_hyNodes) (hvv : v.1 = v'.1) (hv : v.1 < dom.n_hyNodes) (j : Fin ((p + 1) ^ 0)) (j' : Fin ((p' + 1) ^ 0)) : x (dof v j) = x' (dof v' j') := by
  obtain ⟨q, u, w, _, hall⟩ := C104_refined hT hfile B hB harea hf
  obtain ⟨y, h1, h2, _⟩ := hall n hfit p P hP ha m gesv hg tau ht time G E hR old0 new0
  obtain ⟨y', h1', h2', _⟩ := hall n' hfit' p' P' hP' ha' m' gesv' hg' tau' ht' time' G' E' hR' old0' new0'
  obtain rfl := (h1 x).mp ⟨hx0, hx⟩
  obtain rfl := (h1' x').mp ⟨hx0', hx'⟩
  by_cases hD : DN v.1
  · rw [hx0 v ⟨hv, hD⟩ j, hx0' v' ⟨hvv ▸ hv, hvv ▸ hD⟩ j']
  · rw [h2 v hv hD j, h2' v' (hvv ▸ hv) (hvv ▸ hD) j', hvv]

/-- **C104** (refined networks exist).  For every consistent file, all data and every refinement which does not overflow there are a hypergraph and local problems as the theorems above assume. -/
theorem C104_network {T : Tpcc} (hT : T.Lawful) {dom : DomainTopo 0} (hdom : dom.Consistent) (L : List Nat) (B : Nat → Data 0) (time : ℝ) {n : Nat} (hfit : RefinedFits dom n) (m : Mode) {p : Nat} (P : Fin (p + 1) → ℝ[X]) :
    ∃ (G : HyGraph (0 + 1) ((p + 1) ^ 0)) (E : Nat → Edge (0 + 1) ((p + 1) ^ (0 + 1)) ℝ), RefinedNetwork m T dom L B time n P G E := by
  obtain ⟨hE, hN⟩ := file_fits hfit
  have hn := hfit.pos
  let t := (Topology.File.mk' T dom).set_refinement T n
  let types : Nat → Nat → Nat := fun e f => match (NodeDescriptor.File.ofTopology t).get_hyFace_types m T e with
    | .ok types => if h : f < 2 * (0 + 1) then types ⟨f, h⟩ else 0
    | _ => 0
  refine ⟨⟨t.n_hyEdges, t.n_hyNodes, fun e f => match t.get_hyNode_indices m T e with
    | .ok nodes => nodes f
    | _ => 0⟩, fun e => edgeOf P ((B (e / n)).part n (refPos T 0 n e 0)) (types e) L, ⟨rfl, rfl, fun e he => ?_⟩, fun e he => ?_, fun e => rfl, fun e => edgeOf_exact P _ _ _ _⟩
  · obtain ⟨nodes, h1, _⟩ := C24_file_valid hT hdom hn hE hN m e he
    simp only [t, h1]
  · have hl : e / n ^ (0 + 1) < dom.hyFaces_hyEdge.length := by
      rw [hdom.types_length]
      exact (index_lt_iff (d := 0) hn).mp (by simpa using he)
    obtain ⟨tys, h1, _⟩ := C28_file (n := n) hT hdom hn hE m e (by simpa using he) _ (List.getElem?_eq_getElem hl)
    have h2 : ∀ f : Fin (2 * (0 + 1)), types e f = tys f := fun f => by
      simp only [types, t, h1]
      rw [dif_pos f.2]
    show (NodeDescriptor.File.ofTopology t).get_hyFace_types m T e = .ok fun f : Fin (2 * (0 + 1)) => types e f
    rw [show (fun f : Fin (2 * (0 + 1)) => types e f) = tys from funext h2]
    exact h1

/-! A star of three edges with coefficient one, right-hand side `exp` and value zero at the outer ends: the value in the centre is `e - 2`. -/

/-- The data of its edges. -/
noncomputable def starData : Data 0 where
  A := ⟨1, 1, fun _ => 1, fun f _ => if f.1 % 2 = 0 then -1 else 1⟩
  a := fun _ => 1
  f := fun z => Real.exp (z 0)
  g := fun _ => 0
  w := fun _ => 0

theorem starData_admissible : starData.Admissible where
  affine := ⟨one_pos, isUnit_one, fun _ => one_pos, fun f k => by
    have h1 : axis f = 0 := Subsingleton.elim (α := Fin 1) _ _
    have h2 : k = 0 := Subsingleton.elim (α := Fin 1) _ _
    subst h2
    simp only [starData, Spec.normal, h1, Matrix.one_apply_eq, mul_one]⟩
  cont := continuous_const
  pos := fun _ => one_pos

theorem star_file : DirichletFile starDomain [1, 2] fun v => v ≠ 0 where
  consistent := ⟨rfl, rfl, by decide⟩
  zero := by decide
  types := fun e nodes types h1 h2 => by
    have he : e < 3 := by
      have := (List.getElem?_eq_some_iff.mp h1).1
      exact this
    rcases (show e = 0 ∨ e = 1 ∨ e = 2 by omega) with rfl | rfl | rfl <;> cases h1 <;> cases h2 <;> decide
  anchored := fun v hv => ⟨1, by decide, by decide, star_connected 1 v (by decide) hv⟩

/-- **C104** (example).  The value computed for the centre of the star is `e - 2`, for every refinement, every degree at least one and every positive `tau`. -/
theorem C104_example {T : Tpcc} (hT : T.Lawful) {n p : Nat} (hp : 1 ≤ p) (hfit : RefinedFits starDomain n) {P : Fin (p + 1) → ℝ[X]} (hP : OrthonormalPolys p P) (m : Mode)
    (gesv : Gesv (((0 + 1) + 1) * (p + 1) ^ (0 + 1)) 1 ℝ) (hg : GesvSpec gesv) (tau : ℝ) (ht : 0 < tau) (time : ℝ) (G : HyGraph (0 + 1) ((p + 1) ^ 0)) (E : Nat → Edge (0 + 1) ((p + 1) ^ (0 + 1)) ℝ)
    (hR : RefinedNetwork m T starDomain [1, 2] (fun _ => starData) time n P G E) (old0 new0 : LocDofs (0 + 1) ((p + 1) ^ 0) ℝ) (x : Fin (G.n_hyNodes * (p + 1) ^ 0) → ℝ)
    (hx0 : VanishesAt (fun v : Fin G.n_hyNodes => v.1 < 4 ∧ v.1 ≠ 0) x)
    (hx : (Elliptic.mk' G).apply m (localResidual m gesv tau E time) old0 new0 (List.ofFn x) = .ok (List.replicate (G.n_hyNodes * (p + 1) ^ 0) 0)) (v : Fin G.n_hyNodes) (hv : v.1 = 0) (j : Fin ((p + 1) ^ 0)) :
    x (dof v j) = Real.exp 1 - 2 := by
  have hcont : Continuous starData.f := Real.continuous_exp.comp (continuous_apply 0)
  obtain ⟨q, u, w, ⟨nodes, hnodes, hs⟩, hall⟩ := C104_refined hT star_file (fun _ => starData) (fun _ => starData_admissible) (fun _ _ => rfl) fun _ => hcont
  obtain ⟨y, h1, h2, _⟩ := hall n hfit p P hP (fun _ => ⟨1, by rw [natDegree_one]; exact hp, fun _ => (eval_one).symm⟩) m gesv hg tau ht time G E hR old0 new0
  obtain rfl := (h1 x).mp ⟨hx0, hx⟩
  rw [h2 v (by rw [hv]; decide) (by rw [hv]; simp) j, hv]
  -- the exact solution
  have hn0 : ∀ e, (nodes e 0).1 = 0 ∧ (nodes e 1).1 ≠ 0 := fun e => by
    obtain ⟨he, hn⟩ := hnodes e
    rw [hn, hn]
    have h3 : ∀ (e : Nat) (he : e < starDomain.hyNodes_hyEdge.length), starDomain.hyNodes_hyEdge[e] 0 = 0 ∧ starDomain.hyNodes_hyEdge[e] 1 ≠ 0 := by decide
    exact h3 e.1 he
  have hanch : Anchored nodes fun v => v.1 ≠ 0 := by
    have h3 : nodes = fileNodes star_file.consistent := funext fun e => funext fun f => Fin.ext (by
      obtain ⟨he, hn⟩ := hnodes e
      rw [hn, fileNodes_eq _ e he])
    rw [h3]
    exact file_anchored star_file
  have v0 : ((0 : Fin (2 * (0 + 1))).1 : ℝ) = 0 := Nat.cast_zero
  have v1 : ((1 : Fin (2 * (0 + 1))).1 : ℝ) = 1 := Nat.cast_one
  have hsol : IsClassicalSolution (fun _ : Fin starDomain.n_hyEdges => starData) nodes (fun v => v.1 ≠ 0) (fun _ _ z => Real.exp (z 0) - 1) (fun _ z => z 0 - Real.exp (z 0) + (Real.exp 1 - 1)) fun _ _ => Real.exp 1 - 2 := by
    refine ⟨fun e => solves_line (B := starData) (Q := fun s => Real.exp s - 1) (U := fun s => s - Real.exp s + (Real.exp 1 - 1)) (Q' := Real.exp) (U' := fun s => 1 - Real.exp s)
      (fun s => (Real.hasDerivAt_exp s).sub_const _) (fun s => ((hasDerivAt_id s).sub (Real.hasDerivAt_exp s)).add_const _) Real.continuous_exp (continuous_const.sub Real.continuous_exp) fun s _ => ⟨?_, ?_⟩,
      fun e f hf y _ => ?_, fun e f hf y _ => ?_, fun v hv y _ => ?_⟩
    · show (1 : ℝ) * (1 * (Real.exp s - 1)) + (1 : Matrix (Fin (0 + 1)) (Fin (0 + 1)) ℝ) 0 0 * (1 - Real.exp s) = 0
      rw [Matrix.one_apply_eq]
      ring
    · show (1 : Matrix (Fin (0 + 1)) (Fin (0 + 1)) ℝ) 0 0 * Real.exp s = 1 * Real.exp s
      rw [Matrix.one_apply_eq]
    · rcases face_cases f with rfl | rfl
      · rw [facePoint_zero one_pos, v0, Real.exp_zero]
        ring
      · exact absurd (not_not.mp hf) (hn0 e).2
    · rcases face_cases f with rfl | rfl
      · exact absurd (hn0 e).1 hf
      · rw [facePoint_zero one_pos, v1]
        show _ = (0 : ℝ)
        ring
    · refine sum_eq_zero fun e _ => ?_
      rw [sum_ends, if_neg (show ¬ nodes e 1 = v from fun h => hv (h ▸ (hn0 e).2)), add_zero, sum_line, facePoint_zero one_pos, v0, Real.exp_zero]
      simp
  exact congrFun ((C104_unique _ (fun _ => starData_admissible) (fun _ => hcont) nodes _ hanch hs hsol).1 ⟨0, by decide⟩ (by simp)) fun k => k.elim0

/-- The hypotheses of `C104_example` can be met, for every refinement without overflow. -/
example {n p : Nat} (hfit : RefinedFits starDomain n) (P : Fin (p + 1) → ℝ[X]) := C104_network lexTpcc_lawful star_file.consistent [1, 2] (fun _ => starData) 0 hfit .debug P

end HyperHDG.Estimate
