import Verif.Proofs.MatGenerate

namespace HyperHDG.HyGraph

open Finset Spec

variable {dim n : Nat} {K : Type}

theorem written_full [Zero K] {L : Nat} {T : List (Nat × Nat × K)} {mat : SparseMat K} {pos : Nat}
    (h : Written L T mat pos) (hL : T.length = L) :
    mat.row_vec = T.map (fun t => t.1) ∧ mat.col_vec = T.map (fun t => t.2.1) ∧
      mat.value_vec = T.map (fun t => t.2.2) := by
  obtain ⟨_, _, h3, h4, h5⟩ := h
  subst hL
  simp at h3 h4 h5
  exact ⟨h3, h4, h5⟩

/-- All triplets of the hypergraph. -/
def allTriplets [Zero K] [One K] {E N : Nat} (nodes : Fin E → Fin (2 * dim) → Fin N)
    (y : Fin E → Fin (2 * dim) → Fin n → LocDofs dim n K) : List (Nat × Nat × K) :=
  (List.finRange E).flatMap (fun e => edgeTriplets (fun i j => (dof (nodes e i) j).val) (y e))

theorem length_allTriplets [Zero K] [One K] {E N : Nat} (nodes : Fin E → Fin (2 * dim) → Fin N)
    (y : Fin E → Fin (2 * dim) → Fin n → LocDofs dim n K) :
    (allTriplets nodes y).length = E * ((2 * dim * n) * (2 * dim * n)) := by
  unfold allTriplets
  rw [length_flatMap_const _ _ ((2 * dim * n) * (2 * dim * n)), List.length_finRange]
  intro e _
  exact length_edgeTriplets _ _

/-- Outcome of the matrix generation, both when the `unsigned int` length is large enough and when it is not. -/
theorem mat_generate_cases [Zero K] [One K] (m : Mode) (G : HyGraph dim n)
    (nodes : Fin G.n_hyEdges → Fin (2 * dim) → Fin G.n_hyNodes) (hwf : G.WF nodes)
    (loc : LocalFun dim n K) (y : Fin G.n_hyEdges → Fin (2 * dim) → Fin n → LocDofs dim n K)
    (hy : ∀ (e : Fin G.n_hyEdges) j k, loc e (unitDofs j k) (fun _ _ => 0) = .ok (y e j k))
    (old0 new0 : LocDofs dim n K) :
    (G.n_hyEdges * ((2 * dim * n) * (2 * dim * n)) < U32 →
      ∃ mat, G.mat_generate m loc old0 new0 = .ok mat ∧
        mat.row_vec = (allTriplets nodes y).map (fun t => t.1) ∧
        mat.col_vec = (allTriplets nodes y).map (fun t => t.2.1) ∧
        mat.value_vec = (allTriplets nodes y).map (fun t => t.2.2)) ∧
    (U32 ≤ G.n_hyEdges * ((2 * dim * n) * (2 * dim * n)) → G.mat_generate m loc old0 new0 = .ub) := by
  have hL : G.n_hyEdges * 4 * dim * dim * n * n = G.n_hyEdges * ((2 * dim * n) * (2 * dim * n)) := by ring
  let L := u32 (G.n_hyEdges * 4 * dim * dim * n * n)
  let g : Nat → List (Nat × Nat × K) := fun e =>
    if h : e < G.n_hyEdges then edgeTriplets (fun i j => (dof (nodes ⟨e, h⟩ i) j).val) (y ⟨e, h⟩) else []
  have hg : (List.range G.n_hyEdges).flatMap g = allTriplets nodes y := by
    unfold allTriplets
    rw [← List.map_coe_finRange_eq_range, List.flatMap_map]
    congr 1
    funext e
    simp [g]
  have happ := appends_forUp L (fun s : GenState dim n K => (s.mat, s.pos)) G.n_hyEdges (G.genStep m loc) g
    (fun e he => by
      simp only [g, dif_pos he]
      exact genStep_appends m L G loc e hwf.fits (nodes ⟨e, he⟩) (fun i => hwf.hyNodes_eq ⟨e, he⟩ i) (y ⟨e, he⟩)
        (fun j k => hy ⟨e, he⟩ j k))
    [] ⟨⟨List.replicate L 0, List.replicate L 0, List.replicate L 0⟩, 0, old0, new0⟩
    ⟨rfl, by simp, by simp, by simp, by simp⟩
  rw [hg] at happ
  simp only [List.length_nil, Nat.zero_add, List.nil_append, length_allTriplets] at happ
  constructor
  · intro h
    have hLe : L = G.n_hyEdges * ((2 * dim * n) * (2 * dim * n)) := by
      simp only [L]; rw [hL, u32_of_lt h]
    obtain ⟨s, e, w⟩ := happ.1 (by omega)
    refine ⟨s.mat, ?_, written_full w (by rw [length_allTriplets, hLe])⟩
    simp only [mat_generate, for_each]
    rw [e]; rfl
  · intro h
    have hLe : L < U32 := u32_lt _
    have e := happ.2 (by omega)
    simp only [mat_generate, for_each]
    rw [e]; rfl

theorem zip_maps (T : List (Nat × Nat × K)) :
    (T.map (fun t => t.1)).zip ((T.map (fun t => t.2.1)).zip (T.map (fun t => t.2.2))) = T := by
  induction T with
  | nil => rfl
  | cons t T ih => simp [ih]

theorem sum_flatMap' {α β M : Type} [AddCommMonoid M] (l : List α) (g : α → List β) (f : β → M) :
    ((l.flatMap g).map f).sum = (l.map (fun a => ((g a).map f).sum)).sum := by
  induction l with
  | nil => simp
  | cons a l ih => simp [List.flatMap_cons, ih]

theorem sum_finRange {M : Type} [AddCommMonoid M] (d : Nat) (f : Fin d → M) :
    ((List.finRange d).map f).sum = ∑ i, f i := (Fin.sum_univ_def f).symm

theorem linear_expand [CommRing K] (L : LocDofs dim n K →ₗ[K] LocDofs dim n K) (u : LocDofs dim n K) :
    L u = ∑ j, ∑ k, u j k • L (unitDofs j k) := by
  have hu : u = ∑ j, ∑ k, u j k • (unitDofs j k : LocDofs dim n K) := by
    funext a b
    simp only [Finset.sum_apply, Pi.smul_apply, unitDofs, smul_eq_mul, mul_ite, mul_one, mul_zero]
    rw [Finset.sum_eq_single a]
    · rw [Finset.sum_eq_single b]
      · simp
      · intro b' _ h; simp [Ne.symm h]
      · simp
    · intro a' _ h
      apply Finset.sum_eq_zero
      intro b' _; simp [Ne.symm h]
    · simp
  conv_lhs => rw [hu]
  simp only [map_sum, map_smul]

theorem tripletProduct_all [CommRing K] {E N : Nat} (nodes : Fin E → Fin (2 * dim) → Fin N)
    (L : Fin E → LocDofs dim n K →ₗ[K] LocDofs dim n K) (x : Nat → K) (k : Fin (N * n)) :
    ((allTriplets nodes (fun e j k => L e (unitDofs j k))).map
      (fun t => if t.1 = k.1 then t.2.2 * x t.2.1 else 0)).sum =
    assemble nodes (fun e => L e (faceValues nodes (fun i => x i.1) e)) k := by
  unfold allTriplets edgeTriplets colTriplets assemble
  simp only [sum_flatMap', sum_finRange, List.map_cons, List.map_nil, List.sum_cons, List.sum_nil, add_zero]
  apply Finset.sum_congr rfl
  intro e _
  have hx := linear_expand (L e) (faceValues nodes (fun i => x i.1) e)
  rw [hx]
  simp only [Finset.sum_apply, Pi.smul_apply, smul_eq_mul]
  have hd : ∀ (i : Fin (2 * dim)) (j : Fin n), ((dof (nodes e i) j).1 = k.1) = (dof (nodes e i) j = k) :=
    fun i j => by rw [Fin.ext_iff]
  simp only [hd]
  calc ∑ j, ∑ l, ∑ i, ∑ j', (if dof (nodes e i) j' = k then
          L e (unitDofs j l) i j' * x (dof (nodes e j) l).1 else 0)
      = ∑ j, ∑ i, ∑ l, ∑ j', (if dof (nodes e i) j' = k then
          L e (unitDofs j l) i j' * x (dof (nodes e j) l).1 else 0) :=
        Finset.sum_congr rfl (fun j _ => Finset.sum_comm)
    _ = ∑ i, ∑ j, ∑ l, ∑ j', (if dof (nodes e i) j' = k then
          L e (unitDofs j l) i j' * x (dof (nodes e j) l).1 else 0) := Finset.sum_comm
    _ = ∑ i, ∑ j', ∑ j, ∑ l, (if dof (nodes e i) j' = k then
          L e (unitDofs j l) i j' * x (dof (nodes e j) l).1 else 0) := by
        apply Finset.sum_congr rfl
        intro i _
        rw [Finset.sum_comm' (s := Finset.univ) (t := fun _ => Finset.univ) (t' := Finset.univ)
          (s' := fun _ => Finset.univ) (f := fun j' j => ∑ l, (if dof (nodes e i) j' = k then
          L e (unitDofs j l) i j' * x (dof (nodes e j) l).1 else 0)) (by simp)]
        exact Finset.sum_congr rfl (fun j _ => Finset.sum_comm)
    _ = _ := by
        apply Finset.sum_congr rfl
        intro i _
        apply Finset.sum_congr rfl
        intro j' _
        by_cases h : dof (nodes e i) j' = k
        · simp only [if_pos h]
          apply Finset.sum_congr rfl
          intro a _
          apply Finset.sum_congr rfl
          intro b _
          exact mul_comm _ _
        · simp [if_neg h]

theorem allTriplets_bound [Zero K] [One K] {E N : Nat} (nodes : Fin E → Fin (2 * dim) → Fin N)
    (y : Fin E → Fin (2 * dim) → Fin n → LocDofs dim n K) :
    ∀ t ∈ allTriplets nodes y, t.1 < N * n ∧ t.2.1 < N * n := by
  intro t ht
  simp only [allTriplets, edgeTriplets, colTriplets, List.mem_flatMap, List.mem_finRange, true_and,
    List.mem_singleton] at ht
  obtain ⟨e, j, k, i, l, rfl⟩ := ht
  exact ⟨(dof (nodes e i) l).2, (dof (nodes e j) k).2⟩

end HyperHDG.HyGraph
