import Verif.Proofs.Plot
import Verif.Props.UnitPoints

/-!
# C35–C37: plotting
-/

namespace HyperHDG

open Spec

variable {d s n q sys : Nat} {K : Type}

/-! ## C35: plot files are consistent -/

/-- **C35** (all subdivisions; partial: only the mesh).  Whenever a file is written, its mesh is consistent: points, cells, offsets and types are as many as announced, and cells
refer to existing, pairwise different points.  Plotting the boundaries of edges (`d = 0`) is only covered without subdivision (see `C35_subdivided_boundary`), and space
dimensions larger than 3 are excluded (see `C35_four_dimensions`). -/
theorem C35_mesh_partial [Field K] (m : Mode) (I : PlotInput d s n q sys K) (node_sys : Nat) (lambda : List K) (P : PlotOptions K) (V : Vtu K)
    (hd : d ≤ 2) (hs : s ≤ 3) (hfit : PlotFits d q I.graph.n_hyEdges P) (hq : P.plot_edge_boundaries = true → d ≠ 0 ∨ q = 1)
    (h : plot_vtu m I node_sys lambda P = .ok V) :
    MeshConsistent V ∧ V.n_points = pointCount d q I.graph.n_hyEdges P ∧ V.n_cells = cellCount d q I.graph.n_hyEdges P := by
  refine ⟨PlotInput.mesh_consistent hfit hd hs hq h, ?_⟩
  obtain ⟨ep, bp, vals, -, -, -, rfl⟩ := PlotInput.plot_vtu_ok I P h
  exact ⟨PlotInput.n_plot_points_eq hfit, PlotInput.n_plot_cells_eq hfit⟩

/-- The cells of the hyperedges.  The cell with digits `c` (first coordinate: lowest digit) of hyperedge `he` has as its corner with bits `b` the point number `c + b` of
the grid of that hyperedge; that point is what the geometry gives as point with digits `c + b`. -/
theorem C35_cells [Field K] (m : Mode) (I : PlotInput d s n q sys K) (node_sys : Nat) (lambda : List K) (P : PlotOptions K) (V : Vtu K)
    (hd : d ≤ 2) (hfit : PlotFits d q I.graph.n_hyEdges P) (hq : P.plot_edge_boundaries = true → d ≠ 0 ∨ q = 1)
    (hE : P.plot_edges = true) (h : plot_vtu m I node_sys lambda P = .ok V) (he : Fin I.graph.n_hyEdges) (c : Fin (d + 1) → Fin q) :
    (cell V (he.1 * q ^ (d + 1) + fromDigits q (List.ofFn fun j => (c j : Nat)))).length = 2 ^ (d + 1) ∧
    ∀ b : Fin (d + 1) → Fin 2, ∃ p x,
      (cell V (he.1 * q ^ (d + 1) + fromDigits q (List.ofFn fun j => (c j : Nat))))[fromDigits 2 (List.ofFn fun j => (b j : Nat))]? = some p ∧
      p = he.1 * (q + 1) ^ (d + 1) + fromDigits (q + 1) (List.ofFn fun j => (c j : Nat) + (b j : Nat)) ∧
      I.lexicographic he (fromDigits (q + 1) (List.ofFn fun j => (c j : Nat) + (b j : Nat))) (plotAbscissas q P.scale) = .ok x ∧
      V.points[p]? = some (pointLine x) := by
  obtain ⟨ep, bp, vals, h1, h2, h3, hV⟩ := PlotInput.plot_vtu_ok I P h
  have hB := PlotInput.twoBlocks hfit hd hq hV
  have hN := he.2
  have hfp := hfit.points
  unfold pointCount at hfp
  rw [if_pos hE] at hfp
  have hcd : fromDigits q (List.ofFn fun j => (c j : Nat)) < q ^ (d + 1) := by
    have := Hypercube.fromDigits_lt q (List.ofFn fun j => (c j : Nat)) (by
      intro x hx
      obtain ⟨j, rfl⟩ := List.mem_ofFn' _ _ |>.1 hx
      exact (c j).2)
    rwa [List.length_ofFn] at this
  have hlast : he.1 * (q + 1) ^ (d + 1) + (q + 1) ^ (d + 1) ≤ I.graph.n_hyEdges * (q + 1) ^ (d + 1) := by
    rw [← Nat.succ_mul]; exact Nat.mul_le_mul_right _ hN
  have hcell : he.1 * q ^ (d + 1) + fromDigits q (List.ofFn fun j => (c j : Nat)) < I.graph.n_hyEdges * q ^ (d + 1) := by
    calc _ < he.1 * q ^ (d + 1) + q ^ (d + 1) := by omega
      _ = (he.1 + 1) * q ^ (d + 1) := by ring
      _ ≤ _ := Nat.mul_le_mul_right _ hN
  have hlA : (I.edgeCubes P).1.length = I.graph.n_hyEdges * q ^ (d + 1) := by
    rw [PlotInput.edgeCubes_eq hfit]
    simp only [if_pos hE]
    exact flatMap_length fun i _ => sub_cube_length _ _ _ (.inl (by omega))
  have hcells : he.1 * q ^ (d + 1) + fromDigits q (List.ofFn fun j => (c j : Nat)) < V.n_cells := by
    rw [hB.n_cells, hlA]; omega
  have hlen : he.1 * q ^ (d + 1) + fromDigits q (List.ofFn fun j => (c j : Nat)) < V.connectivity.length := by
    rw [hB.length_connectivity]; exact hcells
  have hmem : V.connectivity[he.1 * q ^ (d + 1) + fromDigits q (List.ofFn fun j => (c j : Nat))] ∈ (I.edgeCubes P).1 := by
    simp only [hB.connectivity]
    rw [List.getElem_append_left (by omega)]
    exact List.getElem_mem _
  rw [hB.cell_eq hcells hlen]
  refine ⟨hB.sizeA _ hmem, fun b => ?_⟩
  obtain ⟨l, g1, g2⟩ := sub_cube_get (d + 1) q (he.1 * (q + 1) ^ (d + 1)) (by omega) (by omega) c b
  have hline : V.connectivity[he.1 * q ^ (d + 1) + fromDigits q (List.ofFn fun j => (c j : Nat))] = l := by
    have : V.connectivity[he.1 * q ^ (d + 1) + fromDigits q (List.ofFn fun j => (c j : Nat))]? = some l := by
      rw [hB.connectivity, List.getElem?_append_left (by omega), PlotInput.edgeCubes_eq hfit]
      simp only [if_pos hE]
      rw [flatMap_getElem? (v := q ^ (d + 1)) (fun i _ => sub_cube_length _ _ _ (.inl (by omega))) hN hcd]
      exact g1
    rw [List.getElem?_eq_getElem hlen] at this
    exact Option.some.inj this
  have hpt : fromDigits (q + 1) (List.ofFn fun j => (c j : Nat) + (b j : Nat)) < (q + 1) ^ (d + 1) := by
    have := Hypercube.fromDigits_lt (q + 1) (List.ofFn fun j => (c j : Nat) + (b j : Nat)) (by
      intro x hx
      obtain ⟨j, rfl⟩ := List.mem_ofFn' _ _ |>.1 hx
      have := (c j).2
      have := (b j).2
      show (c j : Nat) + (b j : Nat) < q + 1
      omega)
    rwa [List.length_ofFn] at this
  obtain ⟨a1, -, a2⟩ := PlotInput.edgePoints_ok I P h1
  rw [PlotInput.points_per_edge_eq hfit] at a1 a2
  rw [if_pos hE] at a1
  obtain ⟨x, g3, g4⟩ := a2 hE he hN _ hpt
  refine ⟨_, x, by rw [hline]; exact g2, rfl, g3, ?_⟩
  rw [hV]
  show (ep ++ bp)[_]? = _
  rw [List.getElem?_append_left (by omega)]
  exact g4

/-- **C35** for files as `plot` writes them (without subdivision): mesh, indices and values are consistent, whatever the options; for the values, either the boundaries are not plotted, or
there are at least as many components on the hypernodes as on the hyperedges, or hyperedges are edges (otherwise see `C35_boundary_values`). -/
theorem C35_consistent_partial [Field K] (m : Mode) (I : PlotInput d s n 1 sys K) (node_sys : Nat) (lambda : List K) (P : PlotOptions K) (V : Vtu K)
    (hd : d ≤ 2) (hs : s ≤ 3) (hfit : PlotFits d 1 I.graph.n_hyEdges P) (h : plot_vtu m I node_sys lambda P = .ok V) :
    MeshConsistent V ∧ IndexConsistent V ∧ ((P.plot_edge_boundaries = true → sys ≤ node_sys ∨ d = 0) → ValuesConsistent V) := by
  refine ⟨PlotInput.mesh_consistent hfit hd hs (fun _ => .inr rfl) h, ?_, ?_⟩
  · obtain ⟨ep, bp, vals, -, -, -, rfl⟩ := PlotInput.plot_vtu_ok I P h
    intro l hl
    show l.length = I.n_plot_cells P
    rw [PlotInput.n_plot_cells_eq hfit]
    change I.cellIndex P = some l at hl
    unfold PlotInput.cellIndex at hl
    split at hl
    · obtain rfl := Option.some.inj hl
      rw [List.length_append]
      unfold cellCount
      congr 1
      · split
        · rw [flatMap_length (v := 1 ^ (d + 1)) fun i _ => by rw [List.length_replicate, PlotInput.pow_cells hfit]]
        · rfl
      · split
        · rename_i hB
          rw [flatMap_length (v := 1) fun i _ => by rw [List.length_replicate, PlotInput.pow_cells hfit, Nat.one_pow], PlotInput.n_edge_boundaries_eq hfit hB]
          simp
        · rfl
    · simp at hl
  · intro hb
    obtain ⟨ep, bp, vals, -, -, h3, rfl⟩ := PlotInput.plot_vtu_ok I P h
    intro comp l hl
    obtain rfl : vals = some (comp, l) := hl
    obtain ⟨-, rfl, g, -⟩ := PlotInput.pointData_ok h3
    show l.flatten.length = I.n_plot_points P * _
    rw [g, PlotInput.n_plot_points_eq hfit]
    unfold pointCount
    rw [Nat.add_mul]
    congr 1
    · split <;> simp
    · split
      · rename_i hB
        rw [Nat.mul_assoc _ ((1 + 1) ^ d)]
        congr 1
        rcases hb hB with hb | rfl
        · rw [Nat.max_eq_right hb, Nat.sub_eq_zero_of_le hb]; rfl
        · simp; omega
      · simp

/-- The opposite in the remaining case: with boundaries of squares or cubes and fewer components on the hypernodes than on the hyperedges, there are too few values, since the
line of a face is filled up with zeros only once. -/
theorem C35_boundary_values [Field K] (m : Mode) (I : PlotInput d s n 1 sys K) (node_sys : Nat) (lambda : List K) (P : PlotOptions K) (V : Vtu K)
    (hfit : PlotFits d 1 I.graph.n_hyEdges P) (h : plot_vtu m I node_sys lambda P = .ok V)
    (hN : 0 < I.graph.n_hyEdges) (hB : P.plot_edge_boundaries = true) (hsys : node_sys < sys) (hd : d ≠ 0) :
    ∃ l, V.values = some (sys, l) ∧ l.flatten.length < V.n_points * sys := by
  obtain ⟨ep, bp, vals, -, -, h3, rfl⟩ := PlotInput.plot_vtu_ok I P h
  have hex : ∃ comp l, vals = some (comp, l) := by
    unfold PlotInput.pointData at h3
    rw [if_neg (by omega)] at h3
    obtain ⟨L1, -, h3⟩ := Res.bind_eq_ok.1 h3
    obtain ⟨L2, -, h3⟩ := Res.bind_eq_ok.1 h3
    exact ⟨_, _, (Res.ok.inj h3).symm⟩
  obtain ⟨comp, l, rfl⟩ := hex
  obtain ⟨-, rfl, g, -⟩ := PlotInput.pointData_ok h3
  rw [Nat.max_eq_left (by omega)] at g ⊢
  refine ⟨l, rfl, ?_⟩
  show l.flatten.length < I.n_plot_points P * sys
  rw [g, PlotInput.n_plot_points_eq hfit]
  unfold pointCount
  rw [if_pos hB, if_pos hB, Nat.add_mul]
  have h1 : 2 ^ d * node_sys + (sys - node_sys) < 2 ^ d * sys := by
    obtain ⟨k, rfl⟩ : ∃ k, sys = node_sys + (k + 1) := ⟨sys - node_sys - 1, by omega⟩
    rw [Nat.add_sub_cancel_left, Nat.mul_add]
    have : 2 ≤ 2 ^ d := by
      calc 2 = 2 ^ 1 := rfl
        _ ≤ 2 ^ d := Nat.pow_le_pow_right (by omega) (by omega)
    nlinarith
  have h2 : I.graph.n_hyEdges * (2 * (d + 1)) * (2 ^ d * node_sys + (sys - node_sys)) < I.graph.n_hyEdges * (2 * (d + 1)) * (1 + 1) ^ d * sys := by
    rw [Nat.mul_assoc _ ((1 + 1) ^ d)]
    exact Nat.mul_lt_mul_of_pos_left h1 (by positivity)
  split
  · rw [show (1 + 1) ^ (d + 1) = 2 ^ (d + 1) from rfl]
    omega
  · omega

/-- With subdivisions there are too few values: only `2^(d + 1)` per hyperedge. -/
theorem C35_subdivided_values [Field K] (m : Mode) (I : PlotInput d s n q sys K) (node_sys : Nat) (lambda : List K) (P : PlotOptions K) (V : Vtu K)
    (hfit : PlotFits d q I.graph.n_hyEdges P) (h : plot_vtu m I node_sys lambda P = .ok V) (hq : 1 < q)
    (hN : 0 < I.graph.n_hyEdges) (hE : P.plot_edges = true) (hB : P.plot_edge_boundaries = false) (hsys : 0 < sys) :
    ¬ ValuesConsistent V := by
  obtain ⟨ep, bp, vals, -, -, h3, rfl⟩ := PlotInput.plot_vtu_ok I P h
  have hex : ∃ comp l, vals = some (comp, l) := by
    unfold PlotInput.pointData at h3
    rw [if_neg (by omega)] at h3
    obtain ⟨L1, -, h3⟩ := Res.bind_eq_ok.1 h3
    obtain ⟨L2, -, h3⟩ := Res.bind_eq_ok.1 h3
    exact ⟨_, _, (Res.ok.inj h3).symm⟩
  obtain ⟨comp, l, rfl⟩ := hex
  obtain ⟨-, rfl, g, -⟩ := PlotInput.pointData_ok h3
  intro hc
  have hc := hc _ l rfl
  change l.flatten.length = I.n_plot_points P * _ at hc
  rw [g, PlotInput.n_plot_points_eq hfit] at hc
  unfold pointCount at hc
  simp only [hE, hB, if_true, Bool.false_eq_true, if_false, Nat.add_zero] at hc
  have h1 : I.graph.n_hyEdges * 2 ^ (d + 1) = I.graph.n_hyEdges * (q + 1) ^ (d + 1) := Nat.eq_of_mul_eq_mul_right (by omega) hc
  have h2 : 2 ^ (d + 1) = (q + 1) ^ (d + 1) := Nat.eq_of_mul_eq_mul_left hN h1
  have h3 : 2 ^ (d + 1) < (q + 1) ^ (d + 1) := Nat.pow_lt_pow_left (by omega) (by omega)
  omega

/-- In four or more space dimensions, the lines of `Points` have as many entries as the space has dimensions, instead of three. -/
theorem C35_four_dimensions [Field K] (m : Mode) (I : PlotInput d s n q sys K) (node_sys : Nat) (lambda : List K) (P : PlotOptions K) (V : Vtu K)
    (hfit : PlotFits d q I.graph.n_hyEdges P) (h : plot_vtu m I node_sys lambda P = .ok V)
    (hN : 0 < I.graph.n_hyEdges) (hE : P.plot_edges = true) (hs : 3 < s) : ¬ MeshConsistent V := by
  obtain ⟨ep, bp, vals, h1, -, -, rfl⟩ := PlotInput.plot_vtu_ok I P h
  intro hc
  obtain ⟨a1, -, a2⟩ := PlotInput.edgePoints_ok I P h1
  obtain ⟨x, -, hx⟩ := a2 hE 0 hN 0 (by rw [PlotInput.points_per_edge_eq hfit]; positivity)
  have := hc.coordinates (pointLine x) (List.mem_append_left _ (List.mem_of_getElem? hx))
  simp [pointLine] at this
  omega

/-- What the plot says about a function on the hyperedges: the file is written, and the values at point number `pt` of hyperedge `he` are those of the local solver at that point, for the
unknowns of the hypernodes of `he`; further components are zero. -/
theorem C35_edges [Field K] (m : Mode) (I : PlotInput d s n 1 sys K) (node_sys : Nat) (P : PlotOptions K)
    (nodes : Fin I.graph.n_hyEdges → Fin (2 * (d + 1)) → Fin I.graph.n_hyNodes) (hwf : I.graph.WF nodes) (x : Fin (I.graph.n_hyNodes * n) → K)
    (hd : d ≤ 2) (hs : s ≤ 3) (hfit : PlotFits d 1 I.graph.n_hyEdges P) (hE : P.plot_edges = true) (hB : P.plot_edge_boundaries = false) (hsys : 0 < sys)
    (pos : Fin I.graph.n_hyEdges → Nat → Fin s → K) (hpos : ∀ he : Fin I.graph.n_hyEdges, ∀ pt < 2 ^ (d + 1), I.lexicographic he pt (plotAbscissas 1 P.scale) = .ok (pos he pt))
    (val : Fin I.graph.n_hyEdges → Fin sys → Fin (Hypercube.pow (d + 1) 2) → K)
    (hval : ∀ he : Fin I.graph.n_hyEdges, I.bulk_values he (plotAbscissas 1 P.scale) (fun i j => x (dof (nodes he i) j)) = .ok (val he)) :
    ∃ V vals, plot_vtu m I node_sys (List.ofFn x) P = .ok V ∧ MeshConsistent V ∧ IndexConsistent V ∧ ValuesConsistent V ∧
      V.n_points = I.graph.n_hyEdges * 2 ^ (d + 1) ∧ V.values = some (max sys node_sys, vals) ∧
      ∀ (he : Fin I.graph.n_hyEdges) (pt : Nat) (hpt : pt < Hypercube.pow (d + 1) 2),
        V.points[he.1 * 2 ^ (d + 1) + pt]? = some (pointLine (pos he pt)) ∧
        ∀ e < max sys node_sys, vals.flatten[(he.1 * 2 ^ (d + 1) + pt) * max sys node_sys + e]? = some (if h : e < sys then val he ⟨e, h⟩ ⟨pt, hpt⟩ else 0) := by
  have hpow : Hypercube.pow (d + 1) 2 = 2 ^ (d + 1) := pow_of_lt hfit.grid
  have hppe : I.points_per_edge = 2 ^ (d + 1) := PlotInput.points_per_edge_eq hfit
  have hok : ∃ V, plot_vtu m I node_sys (List.ofFn x) P = .ok V := by
    have h1 : ∃ ep, I.edgePoints P (plotAbscissas 1 P.scale) = .ok ep := by
      unfold PlotInput.edgePoints
      rw [if_pos hE, collect_eq (g := fun he => (List.range (2 ^ (d + 1))).map fun pt => if h : he < I.graph.n_hyEdges then pointLine (pos ⟨he, h⟩ pt) else [])]
      · exact ⟨_, rfl⟩
      · intro he hhe
        rw [hppe]
        refine collect_eq fun pt hpt => ?_
        have := hpos ⟨he, hhe⟩ pt hpt
        simp only at this
        rw [this, dif_pos hhe]
        rfl
    have h2 : I.boundaryPoints P (plotAbscissas 1 (P.scale * P.boundary_scale)) = .ok [] := by
      unfold PlotInput.boundaryPoints
      rw [if_neg (by simp [hB])]
    have hline : ∀ he : Fin I.graph.n_hyEdges, ∃ l, PlotInput.edgeLine node_sys (val he) = .ok l := fun he =>
      PlotInput.edgeLine_total node_sys (val he) (by rw [hpow])
    choose line hline using hline
    have h3 : ∃ L, I.edgeData m node_sys (List.ofFn x) P (plotAbscissas 1 P.scale) = .ok L := by
      unfold PlotInput.edgeData PlotInput.plot_edge_values
      rw [if_pos hE, collect_eq (g := fun he => if h : he < I.graph.n_hyEdges then line ⟨he, h⟩ else [])]
      · exact ⟨_, rfl⟩
      · intro he hhe
        have := PlotInput.get_edge_dof_values_eq m I nodes hwf x ⟨he, hhe⟩
        simp only at this
        rw [this, Res.ok_bind]
        have := hval ⟨he, hhe⟩
        simp only at this
        rw [this, Res.ok_bind, hline, dif_pos hhe]
    have h4 : I.boundaryData m node_sys (List.ofFn x) P (plotAbscissas 1 (P.scale * P.boundary_scale)) = .ok [] := by
      unfold PlotInput.boundaryData
      rw [if_neg (by simp [hB])]
    obtain ⟨ep, h1⟩ := h1
    obtain ⟨L, h3⟩ := h3
    unfold plot_vtu
    dsimp only
    rw [h1, Res.ok_bind, h2, Res.ok_bind, hyAssert_of (by rw [PlotInput.boundaryCubes_eq hfit, PlotInput.n_plot_points_eq hfit]), Res.ok_bind]
    unfold PlotInput.pointData
    rw [if_neg (by omega), h3, Res.ok_bind, h4]
    exact ⟨_, rfl⟩
  obtain ⟨V, hV⟩ := hok
  obtain ⟨c1, c2, c3⟩ := C35_consistent_partial m I node_sys _ P V hd hs hfit hV
  obtain ⟨ep, bp, vals, h1, h2, h3, rfl⟩ := PlotInput.plot_vtu_ok I P hV
  have hex : ∃ comp l, vals = some (comp, l) := by
    unfold PlotInput.pointData at h3
    rw [if_neg (by omega)] at h3
    obtain ⟨L1, -, h3⟩ := Res.bind_eq_ok.1 h3
    obtain ⟨L2, -, h3⟩ := Res.bind_eq_ok.1 h3
    exact ⟨_, _, (Res.ok.inj h3).symm⟩
  obtain ⟨comp, l, rfl⟩ := hex
  obtain ⟨-, rfl, -, g⟩ := PlotInput.pointData_ok h3
  obtain ⟨L1, L2, rfl, g'⟩ := g hE
  obtain ⟨g1, g2⟩ := PlotInput.plot_edge_values_ok g'
  obtain ⟨a1, -, a2⟩ := PlotInput.edgePoints_ok I P h1
  rw [hppe] at a1 a2
  rw [if_pos hE] at a1
  refine ⟨_, L1 ++ L2, hV, c1, c2, c3 (by simp [hB]), ?_, rfl, fun he pt hpt => ?_⟩
  · show I.n_plot_points P = _
    rw [PlotInput.n_plot_points_eq hfit]
    unfold pointCount
    rw [if_pos hE, if_neg (by simp [hB])]
    rfl
  · rw [hpow] at hpt
    have hpos' : he.1 * 2 ^ (d + 1) + pt < I.graph.n_hyEdges * 2 ^ (d + 1) := by
      calc _ < he.1 * 2 ^ (d + 1) + 2 ^ (d + 1) := by omega
        _ = (he.1 + 1) * 2 ^ (d + 1) := by ring
        _ ≤ _ := Nat.mul_le_mul_right _ he.2
    constructor
    · obtain ⟨y, b1, b2⟩ := a2 hE he he.2 pt hpt
      rw [hpos he pt hpt] at b1
      obtain rfl := Res.ok.inj b1
      show (ep ++ bp)[_]? = _
      rw [List.getElem?_append_left (by omega)]
      exact b2
    · intro e hee
      obtain ⟨dofs, lv, b1, b2, b3⟩ := g2 he he.2
      rw [PlotInput.get_edge_dof_values_eq m I nodes hwf x he] at b1
      obtain rfl := Res.ok.inj b1
      rw [hval he] at b2
      obtain rfl := Res.ok.inj b2
      rw [List.flatten_append, List.getElem?_append_left, b3 pt hpt e hee]
      · by_cases hes : e < sys
        · rw [dif_pos ⟨hes, by rw [hpow]; exact hpt⟩, dif_pos hes]
        · rw [dif_neg (by simp [hes]), dif_neg hes]
      · rw [g1]
        calc _ < (he.1 * 2 ^ (d + 1) + pt) * max sys node_sys + max sys node_sys := by omega
          _ = (he.1 * 2 ^ (d + 1) + pt + 1) * max sys node_sys := by ring
          _ ≤ _ := Nat.mul_le_mul_right _ hpos'

/-- With the points of the unit cube geometry, plotting boundaries is not defined: `boundary_lexicographic` is called with the number of the point in its face instead of
its number among the points of all faces (compare `C45_boundary_partial` and `C45_boundary_negative`). -/
theorem C35_boundary_undefined [Field K] [LinearOrder K] (m : Mode) (I : PlotInput d s n q sys K) (node_sys : Nat) (lambda : List K) (P : PlotOptions K)
    (geo : Nat → Res (Geometry.UnitCube.HyEdge d s K)) (m' : Mode)
    (hgeo : ∀ he pt bd scale pts, I.boundary_lexicographic he pt bd scale pts = (do
      let e ← geo he
      Geometry.UnitCube.HyEdge.boundary_lexicographic m' e pt bd scale pts))
    (hfit : PlotFits d q I.graph.n_hyEdges P) (hN : 0 < I.graph.n_hyEdges) (hB : P.plot_edge_boundaries = true) (V : Vtu K) :
    plot_vtu m I node_sys lambda P ≠ .ok V := by
  intro h
  obtain ⟨ep, bp, vals, -, h2, -, -⟩ := PlotInput.plot_vtu_ok I P h
  obtain ⟨-, -, a⟩ := PlotInput.boundaryPoints_ok I P h2
  have hpos : 0 < (q + 1) ^ d := by positivity
  obtain ⟨x, hx, -⟩ := a hB 0 hN 1 (by omega) 0 (by rw [PlotInput.points_per_boundary_eq hfit]; exact hpos)
  rw [hgeo] at hx
  obtain ⟨e, -, hx⟩ := Res.bind_eq_ok.1 hx
  unfold Geometry.UnitCube.HyEdge.boundary_lexicographic at hx
  rw [hyAssert_of (by positivity), Res.ok_bind, if_pos (by simp)] at hx
  cases hx

/-- With scale 1 and the unit cube geometry, the corner with bits `b` of the cell of hyperedge `he` is the corner of the hyperedge with coordinates `b`. -/
theorem C35_unit_cube [Field K] [LinearOrder K] [IsStrictOrderedRing K] (m : Mode) (I : PlotInput d s n 1 sys K) (node_sys : Nat) (lambda : List K) (P : PlotOptions K) (V : Vtu K)
    (geo : Nat → Res (Geometry.UnitCube.HyEdge d s K)) (m' : Mode)
    (hgeo : ∀ he pt pts, I.lexicographic he pt pts = (do
      let e ← geo he
      Geometry.UnitCube.HyEdge.lexicographic m' e pt pts))
    (hd : d ≤ 2) (hfit : PlotFits d 1 I.graph.n_hyEdges P) (hE : P.plot_edges = true) (hscale : P.scale = 1)
    (h : plot_vtu m I node_sys lambda P = .ok V) (he : Fin I.graph.n_hyEdges) (b : Fin (d + 1) → Fin 2) :
    ∃ p e y, (cell V he)[fromDigits 2 (List.ofFn fun j => (b j : Nat))]? = some p ∧ V.points[p]? = some (pointLine y) ∧ geo he = .ok e ∧
      Geometry.UnitCube.HyEdge.mapPoint m' e (fun j => ((b j : Nat) : K)) = .ok y := by
  obtain ⟨p, x, h1, -, h3, h4⟩ := (C35_cells m I node_sys lambda P V hd hfit (fun _ => .inr rfl) hE h he (fun _ => 0)).2 b
  rw [hgeo] at h3
  obtain ⟨e, h5, h6⟩ := Res.bind_eq_ok.1 h3
  have hz : ∀ k : Nat, fromDigits 1 (List.ofFn fun _ : Fin k => 0) = 0 := by
    intro k
    induction k with
    | zero => rfl
    | succ k ih => rw [List.ofFn_succ, fromDigits, ih]
  refine ⟨p, e, x, ?_, h4, h5, ?_⟩
  · rw [show he.1 * 1 ^ (d + 1) + fromDigits 1 (List.ofFn fun j : Fin (d + 1) => ((0 : Fin 1) : Nat)) = he.1 by rw [Nat.one_pow, Nat.mul_one]; exact congrArg _ (hz (d + 1))] at h1
    exact h1
  · rw [C45_lexicographic m' e _ _ b (by simp)] at h6
    rw [← h6, hscale]
    congr 1
    funext j
    rcases fin_two (b j) with hb | hb <;> simp [plotAbscissas, hb]

/-- With the unit cube geometry, any scale and any number `q` of subdivisions: the corner with bits `b` of the cell with digits `c` is the image of the point of the reference cube with coordinates
`(c + b) / q`, contracted by the scale towards the centre of the cube. -/
theorem C35_unit_cube_scaled [Field K] [LinearOrder K] [IsStrictOrderedRing K] (m : Mode) (I : PlotInput d s n q sys K) (node_sys : Nat) (lambda : List K) (P : PlotOptions K) (V : Vtu K)
    (geo : Nat → Res (Geometry.UnitCube.HyEdge d s K)) (m' : Mode)
    (hgeo : ∀ he pt pts, I.lexicographic he pt pts = (do
      let e ← geo he
      Geometry.UnitCube.HyEdge.lexicographic m' e pt pts))
    (hd : d ≤ 2) (hfit : PlotFits d q I.graph.n_hyEdges P) (hq : P.plot_edge_boundaries = true → d ≠ 0 ∨ q = 1) (hE : P.plot_edges = true)
    (h : plot_vtu m I node_sys lambda P = .ok V) (he : Fin I.graph.n_hyEdges) (c : Fin (d + 1) → Fin q) (b : Fin (d + 1) → Fin 2) :
    ∃ p e y, (cell V (he.1 * q ^ (d + 1) + fromDigits q (List.ofFn fun j => (c j : Nat))))[fromDigits 2 (List.ofFn fun j => (b j : Nat))]? = some p ∧
      V.points[p]? = some (pointLine y) ∧ geo he = .ok e ∧
      Geometry.UnitCube.HyEdge.mapPoint m' e (fun j => 1 / 2 + P.scale * ((((c j : Nat) + (b j : Nat) : Nat) : K) / q - 1 / 2)) = .ok y := by
  obtain ⟨p, x, h1, -, h3, h4⟩ := (C35_cells m I node_sys lambda P V hd hfit hq hE h he c).2 b
  rw [hgeo] at h3
  obtain ⟨e, h5, h6⟩ := Res.bind_eq_ok.1 h3
  refine ⟨p, e, x, h1, h4, h5, ?_⟩
  rw [C45_lexicographic m' e _ _ (fun j => ⟨c j + b j, by have := (c j).2; have := (b j).2; omega⟩) rfl] at h6
  rw [← h6]
  congr 1
  funext j
  simp only [plotAbscissas]
  ring

/-- For hyperedges of dimension 1 subdivided into `q > 1` parts, plotting only boundaries writes `q` vertices for each end, but announces one. -/
theorem C35_subdivided_boundary [Field K] (m : Mode) (I : PlotInput 0 s n q sys K) (node_sys : Nat) (lambda : List K) (P : PlotOptions K) (V : Vtu K)
    (hfit : PlotFits 0 q I.graph.n_hyEdges P) (h : plot_vtu m I node_sys lambda P = .ok V) (hq : 1 < q)
    (hN : 0 < I.graph.n_hyEdges) (hE : P.plot_edges = false) (hB : P.plot_edge_boundaries = true) : ¬ MeshConsistent V := by
  obtain ⟨ep, bp, vals, -, -, -, rfl⟩ := PlotInput.plot_vtu_ok I P h
  intro hc
  have h1 := hc.complete
  simp only [PlotInput.boundaryCubes_eq hfit] at h1
  simp only [PlotInput.edgeCubes_eq hfit, PlotInput.offsets_eq hfit, PlotInput.n_plot_cells_eq hfit] at h1
  simp only [cellCount, hE, hB, if_true, Bool.false_eq_true, if_false, List.nil_append, Nat.zero_add, pow_zero, Nat.mul_one, List.range_zero, List.map_nil] at h1
  rw [if_neg (by omega), List.getD_eq_getElem?_getD, List.getElem?_map, List.getElem?_range (by omega),
    length_flatten_const (v := 1), flatMap_length (v := q)] at h1
  · simp only [Option.map_some, Option.getD_some, Nat.mul_one, Nat.one_mul, Nat.mul_zero, Nat.add_zero] at h1
    have : I.graph.n_hyEdges * 2 * 1 < I.graph.n_hyEdges * 2 * q := Nat.mul_lt_mul_of_pos_left hq (by omega)
    omega
  · intro i _
    simp [vtu_sub_cube_connectivity]
  · intro l hl
    obtain ⟨i, _, hi⟩ := List.mem_flatMap.1 hl
    simp only [vtu_sub_cube_connectivity, List.mem_map] at hi
    obtain ⟨_, _, rfl⟩ := hi
    rfl

/-! ## C37: options -/

section Options
variable (m : Mode) (stof : List Char → Res K) (ftos : K → List Char)

/-- The first part of `set_plot_option` for a non-empty value, by the option. -/
theorem assignOption_text (P : PlotOptions K) (o : OptName) {value : List Char} (hv : value ≠ []) : assignOption m stof P o.text value = match o with
    | .outputDir => .ok { P with outputDir := value }
    | .fileName => .ok { P with fileName := value }
    | .fileEnding => if value = "vtu".toList then .ok { P with fileEnding := .vtu } else do
        hyAssert m False
        .ok P
    | .fileNumber => stoi value >>= fun n => .ok { P with fileNumber := toUnsigned n }
    | .printFileNumber => .ok { P with printFileNumber := isTrue value }
    | .incrementFileNumber => .ok { P with incrementFileNumber := isTrue value }
    | .plotEdges => .ok { P with plot_edges := isTrue value }
    | .plotEdgeBoundaries => .ok { P with plot_edge_boundaries := isTrue value }
    | .scale => stof value >>= fun x => .ok { P with scale := x }
    | .boundaryScale => stof value >>= fun x => .ok { P with boundary_scale := x } := by
  unfold assignOption
  rw [if_neg hv]
  cases o <;> (repeat refine (if_neg (by decide +kernel)).trans ?_) <;> exact if_pos rfl

/-- The second part. -/
theorem optionValue_text (P : PlotOptions K) (o : OptName) : optionValue m ftos P o.text = match o with
    | .outputDir => .ok P.outputDir
    | .fileName => .ok P.fileName
    | .fileEnding => .ok [Char.ofNat 0]
    | .fileNumber => .ok (showNat P.fileNumber)
    | .printFileNumber => .ok (boolText P.printFileNumber)
    | .incrementFileNumber => .ok (boolText P.incrementFileNumber)
    | .plotEdges => .ok (boolText P.plot_edges)
    | .plotEdgeBoundaries => .ok (boolText P.plot_edge_boundaries)
    | .scale => .ok (ftos P.scale)
    | .boundaryScale => .ok (ftos P.boundary_scale) := by
  unfold optionValue
  cases o <;> (repeat refine (if_neg (by decide +kernel)).trans ?_) <;> exact if_pos rfl

theorem stoi_showNat {k : Nat} (hk : k < 2147483648) : stoi (showNat k) = .ok (k : Int) := by
  have hnum := showNat_number (show k < U32 by unfold U32; omega)
  have htake : (showNat k).takeWhile Char.isDigit = showNat k := by
    have := (takeWhile_word (p := Char.isDigit) (w := showNat k) (rest := []) hnum.digits (by simp)).1
    rwa [List.append_nil] at this
  have hlead : leadingNumber (showNat k) = .ok k := by
    unfold leadingNumber
    rw [htake, if_neg hnum.nonempty, hnum.value]
  obtain ⟨c, l, hc⟩ := List.exists_cons_of_ne_nil hnum.nonempty
  have hdig : c.isDigit = true := hnum.digits c (by rw [hc]; simp)
  have hdrop : (showNat k).dropWhile isSpace = showNat k := by
    rw [hc, List.dropWhile_cons, if_neg (by rw [digit_space hdig]; simp)]
  unfold stoi
  rw [hdrop]
  split
  · rename_i l' h
    rw [hc] at h
    obtain ⟨rfl, -⟩ := List.cons.inj h
    exact absurd hdig (by decide)
  · rename_i l' h
    rw [hc] at h
    obtain ⟨rfl, -⟩ := List.cons.inj h
    exact absurd hdig (by decide)
  · rw [hlead, Res.ok_bind, if_pos hk]

/-- Only the named option is changed. -/
theorem C37_changes_only (P P' : PlotOptions K) (o : OptName) (value text : List Char)
    (h : set_plot_option m stof ftos P o.text value = .ok (P', text)) : OnlyChanges o P P' := by
  unfold set_plot_option at h
  obtain ⟨P1, h1, h2⟩ := Res.bind_eq_ok.1 h
  obtain ⟨t, -, h3⟩ := Res.bind_eq_ok.1 h2
  obtain ⟨rfl, rfl⟩ : P1 = P' ∧ t = text := by simpa using h3
  by_cases hv : value = []
  · rw [assignOption, if_pos hv] at h1
    obtain rfl := Res.ok.inj h1
    exact ⟨fun _ => rfl, fun _ => rfl, fun _ => rfl, fun _ => rfl, fun _ => rfl, fun _ => rfl, fun _ => rfl, fun _ => rfl, fun _ => rfl, fun _ => rfl, rfl, rfl⟩
  · rw [assignOption_text m stof P o hv] at h1
    cases o
    case fileEnding =>
      dsimp only at h1
      split at h1
      · obtain rfl := Res.ok.inj h1
        constructor <;> simp
      · obtain ⟨_, -, h1⟩ := Res.bind_eq_ok.1 h1
        obtain rfl := Res.ok.inj h1
        constructor <;> simp
    case fileNumber =>
      obtain ⟨_, -, h1⟩ := Res.bind_eq_ok.1 h1
      obtain rfl := Res.ok.inj h1
      constructor <;> simp
    case scale =>
      obtain ⟨_, -, h1⟩ := Res.bind_eq_ok.1 h1
      obtain rfl := Res.ok.inj h1
      constructor <;> simp
    case boundaryScale =>
      obtain ⟨_, -, h1⟩ := Res.bind_eq_ok.1 h1
      obtain rfl := Res.ok.inj h1
      constructor <;> simp
    all_goals
      obtain rfl := Res.ok.inj h1
      constructor <;> simp

/-- An empty value changes nothing, for all options (also in the case of unknown ones). -/
theorem C37_empty (P P' : PlotOptions K) (option text : List Char) (h : set_plot_option m stof ftos P option [] = .ok (P', text)) : P' = P := by
  unfold set_plot_option at h
  obtain ⟨P1, h1, h2⟩ := Res.bind_eq_ok.1 h
  obtain ⟨t, -, h3⟩ := Res.bind_eq_ok.1 h2
  obtain ⟨rfl, rfl⟩ : P1 = P' ∧ t = text := by simpa using h3
  unfold assignOption at h1
  rw [if_pos rfl] at h1
  exact (Res.ok.inj h1).symm

/-- What is returned when an option is set is what is returned when it is asked for later. -/
theorem C37_get_returns_set (P P' : PlotOptions K) (option value text : List Char)
    (h : set_plot_option m stof ftos P option value = .ok (P', text)) : set_plot_option m stof ftos P' option [] = .ok (P', text) := by
  unfold set_plot_option at h ⊢
  obtain ⟨P1, -, h2⟩ := Res.bind_eq_ok.1 h
  obtain ⟨t, h4, h3⟩ := Res.bind_eq_ok.1 h2
  obtain ⟨rfl, rfl⟩ : P1 = P' ∧ t = text := by simpa using h3
  rw [show assignOption m stof P1 option [] = .ok P1 by unfold assignOption; rw [if_pos rfl], Res.ok_bind, h4, Res.ok_bind]

/-- The value `v` for option `o` is in force in `P`: `text` is its textual form. -/
inductive InForce (stof : List Char → Res K) (ftos : K → List Char) (P : PlotOptions K) : OptName → List Char → List Char → Prop where
  | outputDir : P.outputDir = v → InForce stof ftos P .outputDir v v
  | fileName : P.fileName = v → InForce stof ftos P .fileName v v
  | fileNumber (k : Nat) : P.fileNumber = k → InForce stof ftos P .fileNumber (showNat k) (showNat k)
  | printFileNumber (b : Bool) : P.printFileNumber = b → v ∈ (if b then ["true".toList, ['1']] else ["false".toList, ['0']]) →
      InForce stof ftos P .printFileNumber v (if b then ['1'] else ['0'])
  | incrementFileNumber (b : Bool) : P.incrementFileNumber = b → v ∈ (if b then ["true".toList, ['1']] else ["false".toList, ['0']]) →
      InForce stof ftos P .incrementFileNumber v (if b then ['1'] else ['0'])
  | plotEdges (b : Bool) : P.plot_edges = b → v ∈ (if b then ["true".toList, ['1']] else ["false".toList, ['0']]) →
      InForce stof ftos P .plotEdges v (if b then ['1'] else ['0'])
  | plotEdgeBoundaries (b : Bool) : P.plot_edge_boundaries = b → v ∈ (if b then ["true".toList, ['1']] else ["false".toList, ['0']]) →
      InForce stof ftos P .plotEdgeBoundaries v (if b then ['1'] else ['0'])
  | scale (x : K) : P.scale = x → stof v = .ok x → InForce stof ftos P .scale v (ftos x)
  | boundaryScale (x : K) : P.boundary_scale = x → stof v = .ok x → InForce stof ftos P .boundaryScale v (ftos x)

/-- Valid values of the options: any text for names, decimal numbers below `2^31`, `true`, `1`, `false`, `0`, numbers. -/
def ValidValue (stof : List Char → Res K) (o : OptName) (v : List Char) : Prop :=
  v ≠ [] ∧ match o with
  | .outputDir | .fileName => True
  | .fileEnding => False
  | .fileNumber => ∃ k < 2147483648, v = showNat k
  | .printFileNumber | .incrementFileNumber | .plotEdges | .plotEdgeBoundaries => v ∈ ["true".toList, ['1'], "false".toList, ['0']]
  | .scale | .boundaryScale => ∃ x, stof v = .ok x

/-- **C37** (partial: without `fileEnding`, see `C37_file_ending`).  A valid value is accepted; then it is in force, it is what is returned, and no other option has changed. -/
theorem C37_set_partial (P : PlotOptions K) (o : OptName) (v : List Char) (hv : ValidValue stof o v) :
    ∃ P' text, set_plot_option m stof ftos P o.text v = .ok (P', text) ∧ InForce stof ftos P' o v text ∧ OnlyChanges o P P' := by
  suffices h : ∃ P' text, set_plot_option m stof ftos P o.text v = .ok (P', text) ∧ InForce stof ftos P' o v text by
    obtain ⟨P', text, h1, h2⟩ := h
    exact ⟨P', text, h1, h2, C37_changes_only m stof ftos P P' o v text h1⟩
  obtain ⟨hne, hv⟩ := hv
  have hbool : v ∈ ["true".toList, ['1'], "false".toList, ['0']] → v ∈ (if isTrue v then ["true".toList, ['1']] else ["false".toList, ['0']]) := by
    intro h
    simp only [List.mem_cons, List.not_mem_nil, or_false] at h
    rcases h with rfl | rfl | rfl | rfl <;> decide +kernel
  unfold set_plot_option
  rw [assignOption_text m stof P o hne]
  cases o
  case outputDir => exact ⟨_, _, by rw [Res.ok_bind, optionValue_text]; rfl, .outputDir rfl⟩
  case fileName => exact ⟨_, _, by rw [Res.ok_bind, optionValue_text]; rfl, .fileName rfl⟩
  case fileEnding => exact hv.elim
  case fileNumber =>
    obtain ⟨k, hk, rfl⟩ := hv
    have hu : toUnsigned (k : Int) = k := by unfold toUnsigned U32; omega
    exact ⟨{ P with fileNumber := k }, showNat k, by simp only [stoi_showNat hk, Res.ok_bind, optionValue_text, hu], .fileNumber k rfl⟩
  case printFileNumber => exact ⟨_, _, by rw [Res.ok_bind, optionValue_text]; rfl, .printFileNumber (isTrue v) rfl (hbool hv)⟩
  case incrementFileNumber => exact ⟨_, _, by rw [Res.ok_bind, optionValue_text]; rfl, .incrementFileNumber (isTrue v) rfl (hbool hv)⟩
  case plotEdges => exact ⟨_, _, by rw [Res.ok_bind, optionValue_text]; rfl, .plotEdges (isTrue v) rfl (hbool hv)⟩
  case plotEdgeBoundaries => exact ⟨_, _, by rw [Res.ok_bind, optionValue_text]; rfl, .plotEdgeBoundaries (isTrue v) rfl (hbool hv)⟩
  case scale =>
    obtain ⟨x, hx⟩ := hv
    exact ⟨{ P with scale := x }, ftos x, by simp only [hx, Res.ok_bind, optionValue_text], .scale x rfl hx⟩
  case boundaryScale =>
    obtain ⟨x, hx⟩ := hv
    exact ⟨{ P with boundary_scale := x }, ftos x, by simp only [hx, Res.ok_bind, optionValue_text], .boundaryScale x rfl hx⟩

/-- For `fileEnding`, the returned text is not the value `vtu` but the string which consists of the character with number 0; and that text is not accepted as a value. -/
theorem C37_file_ending (P : PlotOptions K) :
    set_plot_option m stof ftos P "fileEnding".toList "vtu".toList = .ok (P, [Char.ofNat 0]) ∧
      set_plot_option .debug stof ftos P "fileEnding".toList [Char.ofNat 0] = .abort := by
  constructor
  · unfold set_plot_option
    rw [show "fileEnding".toList = OptName.fileEnding.text from rfl, assignOption_text m stof P .fileEnding (by decide), if_pos rfl, Res.ok_bind, optionValue_text]
    cases P
    rename_i e _ _ _ _ _ _ _ _ _
    cases e
    rfl
  · unfold set_plot_option
    rw [show "fileEnding".toList = OptName.fileEnding.text from rfl, assignOption_text .debug stof P .fileEnding (by decide)]
    dsimp only
    rw [if_neg (by decide), hyAssert_debug_not (by simp)]
    rfl

/-- Unknown options: the program stops in debug mode; otherwise nothing is changed and the empty text is returned. -/
theorem C37_unknown (P : PlotOptions K) (option value : List Char) (h : ∀ o : OptName, option ≠ o.text) :
    set_plot_option .debug stof ftos P option value = .abort ∧ set_plot_option .release stof ftos P option value = .ok (P, []) := by
  have hval : ∀ m : Mode, optionValue m ftos P option = (do hyAssert m False; .ok []) := fun m => by
    unfold optionValue
    exact (if_neg (h .outputDir)).trans <| (if_neg (h .fileName)).trans <| (if_neg (h .fileEnding)).trans <| (if_neg (h .fileNumber)).trans <| (if_neg (h .printFileNumber)).trans <| (if_neg (h .incrementFileNumber)).trans <| (if_neg (h .plotEdges)).trans <| (if_neg (h .plotEdgeBoundaries)).trans <| (if_neg (h .scale)).trans <| if_neg (h .boundaryScale)
  have hset : ∀ m : Mode, value ≠ [] → assignOption m stof P option value = (do hyAssert m False; .ok P) := fun m hv => by
    unfold assignOption
    exact (if_neg hv).trans <| (if_neg (h .outputDir)).trans <| (if_neg (h .fileName)).trans <| (if_neg (h .fileEnding)).trans <| (if_neg (h .fileNumber)).trans <| (if_neg (h .printFileNumber)).trans <| (if_neg (h .incrementFileNumber)).trans <| (if_neg (h .plotEdges)).trans <| (if_neg (h .plotEdgeBoundaries)).trans <| (if_neg (h .boundaryScale)).trans <| if_neg (h .scale)
  unfold set_plot_option
  by_cases hv : value = []
  · have hset : ∀ m : Mode, assignOption m stof P option value = .ok P := fun m => by rw [assignOption, if_pos hv]
    rw [hset, hset, Res.ok_bind, Res.ok_bind, hval, hval]
    exact ⟨rfl, rfl⟩
  · rw [hset _ hv, hset _ hv]
    refine ⟨rfl, ?_⟩
    rw [hyAssert_release, Res.ok_bind, Res.ok_bind, hval]
    rfl

/-- Truth values are `true` for the texts `true` and `1` and `false` for all others: also for `True`. -/
theorem C37_True (P : PlotOptions K) : set_plot_option m stof ftos P "plotEdges".toList "True".toList = .ok ({ P with plot_edges := false }, ['0']) := by
  unfold set_plot_option
  rw [show "plotEdges".toList = OptName.plotEdges.text from rfl, assignOption_text m stof P .plotEdges (by decide)]
  simp only [Res.ok_bind, optionValue_text, show isTrue "True".toList = false by decide, boolText]
  rfl

/-- A file number which does not fit into an `int` is refused with an exception, although such numbers can be in force: a negative number is converted to a large one. -/
theorem C37_file_number (P : PlotOptions K) :
    set_plot_option m stof ftos P "fileNumber".toList "-1".toList = .ok ({ P with fileNumber := 4294967295 }, "4294967295".toList) ∧
      set_plot_option m stof ftos P "fileNumber".toList "4294967295".toList = .throw .outOfRange := by
  unfold set_plot_option
  rw [show "fileNumber".toList = OptName.fileNumber.text from rfl, assignOption_text m stof P .fileNumber (by decide), assignOption_text m stof P .fileNumber (by decide)]
  dsimp only
  rw [show stoi "-1".toList = .ok (-1) by decide +kernel, show stoi "4294967295".toList = .throw .outOfRange by decide +kernel]
  refine ⟨?_, rfl⟩
  simp only [Res.ok_bind, optionValue_text]
  rw [show toUnsigned (-1) = 4294967295 by decide, show showNat 4294967295 = "4294967295".toList by decide +kernel]

end Options

/-! ## C36: earlier plots are kept -/

section History

/-- Something to be plotted. -/
structure PlotJob (K : Type) where
  d : Nat
  s : Nat
  n : Nat
  sys : Nat
  node_sys : Nat
  input : PlotInput d s n 1 sys K
  lambda : List K

/-- What a program does: set options and plot. -/
inductive PlotAction (K : Type) where
  | set (option value : List Char)
  | plot (job : PlotJob K)

/-- A program.  Returns the disk and the options at the end, and the list of the names and contents of the files written, in order. -/
def runPlots [Field K] (m : Mode) (stof : List Char → Res K) (ftos : K → List Char) (env : PlotEnv) :
    List (PlotAction K) → Plots K → PlotOptions K → Res (Plots K × PlotOptions K × List (List Char × Option (Vtu K)))
  | [], disk, P => .ok (disk, P, [])
  | .set option value :: rest, disk, P => do
      let r ← set_plot_option m stof ftos P option value
      runPlots m stof ftos env rest disk r.1
  | .plot job :: rest, disk, P => do
      let r ← plot m env job.input job.node_sys job.lambda disk P
      let r' ← runPlots m stof ftos env rest r.1 r.2
      .ok (r'.1, r'.2.1, (plotFile P, r.1 (plotFile P)) :: r'.2.2)

/-- The number of plots. -/
def countPlots : List (PlotAction K) → Nat
  | [] => 0
  | .set _ _ :: rest => countPlots rest
  | .plot _ :: rest => countPlots rest + 1

/-- The program does not interfere with the numbering of the files. -/
def KeepsNumbering (actions : List (PlotAction K)) : Prop :=
  ∀ option value, PlotAction.set option value ∈ actions → value = [] ∨
    option ≠ OptName.fileNumber.text ∧ option ≠ OptName.printFileNumber.text ∧ option ≠ OptName.incrementFileNumber.text

theorem set_keeps (m : Mode) (stof : List Char → Res K) (ftos : K → List Char) (P P' : PlotOptions K) (option value text : List Char)
    (h : set_plot_option m stof ftos P option value = .ok (P', text)) (hk : value = [] ∨
      option ≠ OptName.fileNumber.text ∧ option ≠ OptName.printFileNumber.text ∧ option ≠ OptName.incrementFileNumber.text) :
    P'.fileNumber = P.fileNumber ∧ P'.printFileNumber = P.printFileNumber ∧ P'.incrementFileNumber = P.incrementFileNumber := by
  by_cases ho : ∃ o : OptName, option = o.text
  · obtain ⟨o, rfl⟩ := ho
    rcases hk with rfl | ⟨h1, h2, h3⟩
    · rw [C37_empty m stof ftos P P' _ text h]
      exact ⟨rfl, rfl, rfl⟩
    · have := C37_changes_only m stof ftos P P' o value text h
      exact ⟨this.fileNumber (fun h => h1 (by rw [h])), this.printFileNumber (fun h => h2 (by rw [h])), this.incrementFileNumber (fun h => h3 (by rw [h]))⟩
  · obtain ⟨g1, g2⟩ := C37_unknown stof ftos P option value (fun o h => ho ⟨o, h⟩)
    cases m
    · rw [g1] at h; cases h
    · rw [g2] at h
      obtain ⟨rfl, -⟩ : P = P' ∧ _ := by simpa using h
      exact ⟨rfl, rfl, rfl⟩

/-- **C36**.  In a program which sets options (other than those for the numbering) and plots in any order, with numbering switched on and fewer than `2^32` plots: the names of the
written files, even their last components, are pairwise different; at the end each of these files has the contents which were written to it; all other files are
unchanged; and the file number has grown by the number of plots. -/
theorem C36_never_overwrites [Field K] (m : Mode) (stof : List Char → Res K) (ftos : K → List Char) (env : PlotEnv) (hopen : ∀ f, env.is_open f = true)
    (actions : List (PlotAction K)) (disk disk' : Plots K) (P P' : PlotOptions K) (files : List (List Char × Option (Vtu K)))
    (hprint : P.printFileNumber = true) (hinc : P.incrementFileNumber = true) (hkeep : KeepsNumbering actions)
    (hcount : P.fileNumber + countPlots actions < U32) (h : runPlots m stof ftos env actions disk P = .ok (disk', P', files)) :
    files.length = countPlots actions ∧ (files.map fun f => baseName f.1).Nodup ∧
      (∀ f ∈ files, disk' f.1 = f.2 ∧ f.2 ≠ none) ∧
      (∀ name, (∀ f ∈ files, baseName f.1 ≠ baseName name) → disk' name = disk name) ∧
      P'.fileNumber = P.fileNumber + countPlots actions := by
  suffices hs : files.length = countPlots actions ∧ (files.map fun f => baseName f.1).Nodup ∧
      (∀ f ∈ files, disk' f.1 = f.2 ∧ f.2 ≠ none) ∧
      (∀ name, (∀ f ∈ files, baseName f.1 ≠ baseName name) → disk' name = disk name) ∧
      P'.fileNumber = P.fileNumber + countPlots actions ∧ ∀ f ∈ files, ∃ k, P.fileNumber ≤ k ∧ HasNumber k f.1 by
    obtain ⟨h1, h2, h3, h4, h5, -⟩ := hs
    exact ⟨h1, h2, h3, h4, h5⟩
  induction actions generalizing disk P files with
  | nil =>
    obtain ⟨rfl, rfl, rfl⟩ : disk = disk' ∧ P = P' ∧ [] = files := by simpa [runPlots] using h
    simp [countPlots]
  | cons a rest ih =>
    cases a with
    | set option value =>
      rw [runPlots] at h
      obtain ⟨⟨P1, text⟩, h1, h2⟩ := Res.bind_eq_ok.1 h
      obtain ⟨k1, k2, k3⟩ := set_keeps m stof ftos P P1 option value text h1 (hkeep option value List.mem_cons_self)
      have := ih disk P1 files (k2.trans hprint) (k3.trans hinc) (fun o v ho => hkeep o v (List.mem_cons_of_mem _ ho)) (by rw [k1]; exact hcount) h2
      rw [k1] at this
      exact this
    | plot job =>
      rw [runPlots] at h
      obtain ⟨⟨disk1, P1⟩, h1, h2⟩ := Res.bind_eq_ok.1 h
      obtain ⟨⟨disk2, P2, files2⟩, h3, h4⟩ := Res.bind_eq_ok.1 h2
      obtain ⟨rfl, rfl, rfl⟩ : disk2 = disk' ∧ P2 = P' ∧ (plotFile P, disk1 (plotFile P)) :: files2 = files := by simpa using h4
      have hc : countPlots (.plot job :: rest) = countPlots rest + 1 := rfl
      rw [hc] at hcount ⊢
      -- the plot itself
      have hplot : ∃ V, disk1 = Function.update disk (plotFile P) (some V) ∧ P1 = { P with fileNumber := P.fileNumber + 1 } := by
        unfold plot at h1
        obtain ⟨_, -, h1⟩ := Res.bind_eq_ok.1 h1
        obtain ⟨_, -, h1⟩ := Res.bind_eq_ok.1 h1
        obtain ⟨_, -, h1⟩ := Res.bind_eq_ok.1 h1
        obtain ⟨_, -, h1⟩ := Res.bind_eq_ok.1 h1
        obtain ⟨_, -, h1⟩ := Res.bind_eq_ok.1 h1
        obtain ⟨V, -, h1⟩ := Res.bind_eq_ok.1 h1
        have h1 := Res.ok.inj h1
        simp only [hopen, hinc, if_true, Prod.mk.injEq] at h1
        refine ⟨V, h1.1.symm, ?_⟩
        rw [← h1.2, u32_of_lt (by omega), hinc]
      obtain ⟨V, rfl, rfl⟩ := hplot
      have hnum := plotFile_hasNumber P hprint
      obtain ⟨i1, i2, i3, i4, i5, i6⟩ := ih _ { P with fileNumber := P.fileNumber + 1 } files2 hprint hinc
        (fun o v ho => hkeep o v (List.mem_cons_of_mem _ ho)) (by dsimp only; omega) h3
      dsimp only at i1 i2 i3 i4 i5 i6
      have hne : ∀ f ∈ files2, baseName f.1 ≠ baseName (plotFile P) := fun f hf hb => by
        obtain ⟨k, hk, hk'⟩ := i6 f hf
        have := hasNumber_inj hk' hnum hb
        omega
      refine ⟨by rw [List.length_cons, i1], ?_, ?_, ?_, by omega, ?_⟩
      · rw [List.map_cons, List.nodup_cons]
        refine ⟨fun hmem => ?_, i2⟩
        obtain ⟨f, hf, hb⟩ := List.mem_map.1 hmem
        exact hne f hf hb
      · intro f hf
        rcases List.mem_cons.1 hf with rfl | hf
        · exact ⟨i4 _ hne, by simp⟩
        · exact i3 f hf
      · intro name hname
        rw [i4 name fun f hf => hname f (List.mem_cons_of_mem _ hf), Function.update_of_ne]
        rintro rfl
        exact hname _ List.mem_cons_self rfl
      · intro f hf
        rcases List.mem_cons.1 hf with rfl | hf
        · exact ⟨_, Nat.le_refl _, hnum⟩
        · obtain ⟨k, hk, hk'⟩ := i6 f hf
          exact ⟨k, by omega, hk'⟩

/-- The bound is needed: plot number `2^32 - 1` is followed by plot number 0. -/
theorem C36_wrap (m : Mode) (env : PlotEnv) (I : PlotInput d s n 1 sys ℚ) (node_sys : Nat) (lambda : List ℚ) (disk disk' : Plots ℚ) (P P' : PlotOptions ℚ)
    (hP : P.fileNumber = 4294967295) (hinc : P.incrementFileNumber = true) (h : plot m env I node_sys lambda disk P = .ok (disk', P')) : P'.fileNumber = 0 := by
  unfold plot at h
  obtain ⟨_, -, h⟩ := Res.bind_eq_ok.1 h
  obtain ⟨_, -, h⟩ := Res.bind_eq_ok.1 h
  obtain ⟨_, -, h⟩ := Res.bind_eq_ok.1 h
  obtain ⟨_, -, h⟩ := Res.bind_eq_ok.1 h
  obtain ⟨_, -, h⟩ := Res.bind_eq_ok.1 h
  obtain ⟨V, -, h⟩ := Res.bind_eq_ok.1 h
  have h := (Prod.mk.inj (Res.ok.inj h)).2
  rw [if_pos hinc] at h
  rw [← h, hP]
  rfl

end History

/-! ## Concrete cases -/

section Examples

/-- Two edges in the plane which share a node; the local solver interpolates linearly. -/
def twoEdges : PlotInput 0 2 1 1 1 ℚ where
  graph := ⟨2, 3, fun e i => e + i⟩
  lexicographic := fun he pt pts => .ok ![he + pts (Fin.ofNat 2 pt), 0]
  boundary_lexicographic := fun he _ bd _ _ => .ok ![he + bd, 0]
  bulk_values := fun _ pts dofs => .ok fun _ k => (1 - pts (Fin.ofNat 2 k)) * dofs 0 0 + pts (Fin.ofNat 2 k) * dofs 1 0

/-- All options of the example: both edges and boundaries, with indices. -/
def allOptions : PlotOptions ℚ := { PlotOptions.default with plot_edge_boundaries := true, numbers := true }

/-- The file for the two edges. -/
theorem C35_example : plot_vtu .debug twoEdges 1 [5, 7, 11] PlotOptions.default =
    .ok ⟨4, 2, [[0, 0, 0], [1, 0, 0], [1, 0, 0], [2, 0, 0]], [[0, 1], [2, 3]], [2, 4], [3, 3], none, some (1, [[5, 7], [7, 11]])⟩ := by
  decide +kernel

/-- The same with boundaries and indices. -/
theorem C35_example_boundaries : plot_vtu .debug twoEdges 1 [5, 7, 11] allOptions =
    .ok ⟨8, 6, [[0, 0, 0], [1, 0, 0], [1, 0, 0], [2, 0, 0], [0, 0, 0], [1, 0, 0], [1, 0, 0], [2, 0, 0]], [[0, 1], [2, 3], [4], [5], [6], [7]], [2, 4, 5, 6, 7, 8],
      [3, 3, 1, 1, 1, 1], some [0, 1, 1, 2, 3, 4], some (1, [[5, 7], [7, 11], [0], [0], [0], [0]])⟩ := by
  decide +kernel

/-- The hypotheses of `C35_edges` and `C35_consistent_partial` are met in the example. -/
theorem C35_hypotheses : PlotFits 0 1 twoEdges.graph.n_hyEdges (PlotOptions.default : PlotOptions ℚ) ∧ PlotFits 0 1 twoEdges.graph.n_hyEdges allOptions ∧
    twoEdges.graph.WF (fun e i => ⟨e + i, by have h1 : e.1 < 2 := e.2; have h2 : i.1 < 2 := i.2; change e.1 + i.1 < 3; omega⟩) := by
  refine ⟨⟨by decide, by decide, by decide⟩, ⟨by decide, by decide, by decide⟩, ⟨fun _ _ => rfl, by decide⟩⟩

/-- Three plots with a change of the name of the files: three different files. -/
theorem C36_example : (runPlots .debug (fun _ => .throw .invalidArgument) (fun _ => []) ⟨fun _ => .ok true, fun _ => true⟩
    [.plot ⟨_, _, _, _, 1, twoEdges, [5, 7, 11]⟩, .plot ⟨_, _, _, _, 1, twoEdges, [1, 2, 3]⟩, .set "fileName".toList "b".toList,
      .plot ⟨_, _, _, _, 1, twoEdges, [5, 7, 11]⟩] (fun _ => none) PlotOptions.default >>= fun r =>
    .ok (r.2.2.map Prod.fst, r.2.1.fileNumber)) =
    .ok (["output/example.0.vtu".toList, "output/example.1.vtu".toList, "output/b.2.vtu".toList], 3) := by
  decide +kernel

end Examples

end HyperHDG
