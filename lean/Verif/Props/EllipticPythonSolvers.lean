import Verif.Props.EllipticPython
import Verif.Props.Elliptic
import Verif.Props.Bilaplacian
import Verif.Props.BeamFrame
import Verif.Props.DiffusionIP
import Verif.Props.DiffusionAdvectionReaction
import Verif.Props.DiffusionPostprocess

/-!
# Property C95 for the local solvers of the library
-/

namespace HyperHDG.EllipticPython

open ParabolicProgram (LinearSolver Complete Total)
open HyGraph Spec Finset

variable {K : Type} {dim n N : Nat}

section
variable [Field K] [LinearOrder K] [IsStrictOrderedRing K]

/-- The program with object `W` for a system with `M` unknowns solves the discrete problem "the residual vanishes, and so do the unknowns for which `Z` holds"; the matrix can be assembled if `fits`. -/
structure Correct (W : Wrapper K) (M : Nat) (Z : (Fin M → K) → Prop) (fits : Prop) : Prop where
  /-- The program returns a vector whose residual, as returned by `residual_flux`, has norm at most `tol` times that of the zero vector, and its error. -/
  result : ∀ (setup : Setup) (solvers : List (LinearSolver K)) (tol : K) (x : List K) (error : K), (setup = .matrix → fits) → (∀ s ∈ solvers, Accurate tol s) →
    program W setup solvers = .ok (x, error) → ∃ X r0 r : Fin M → K, x = List.ofFn X ∧ Z X ∧ W.residual_flux W.zero_vector = .ok (List.ofFn r0) ∧ W.residual_flux x = .ok (List.ofFn r) ∧
      ∑ k, r k ^ 2 ≤ tol ^ 2 * ∑ k, r0 k ^ 2 ∧ ∃ rest, W.errors x = .ok (error :: rest)
  /-- It does return, if one of the linear solvers finds solutions of solvable systems and none of them raises exceptions. -/
  returns : ∀ (setup : Setup) (solvers : List (LinearSolver K)) (tol : K), (setup = .matrix → fits) → (∀ s ∈ solvers, Accurate tol s) → (∀ s ∈ solvers, Total s) → (∀ s ∈ solvers, Local s) →
    (∃ s ∈ solvers, Complete s) → ∃ x error, program W setup solvers = .ok (x, error)
  /-- There is exactly one discrete solution, and the program returns it if the linear solvers are exact. -/
  exact : ∃ y : Fin M → K, (∀ y', Z y' ∧ W.residual_flux (List.ofFn y') = .ok (List.replicate M 0) ↔ y' = y) ∧ ∀ (setup : Setup) (solvers : List (LinearSolver K)) (x : List K) (error : K),
    (setup = .matrix → fits) → (∀ s ∈ solvers, Accurate 0 s) → program W setup solvers = .ok (x, error) → x = List.ofFn y

/-- The program with object `W` for a system with `M` unknowns solves the system "`trace_to_flux` is the negative of the residual of the zero vector, and the unknowns for which `Z` holds vanish"; the
matrix can be assembled if `fits`. -/
structure SolvesSystem (W : Wrapper K) (M : Nat) (Z : (Fin M → K) → Prop) (fits : Prop) : Prop where
  /-- The program returns a vector which solves the system up to `tol`, relative to the right-hand side, and its error. -/
  result : ∀ (setup : Setup) (solvers : List (LinearSolver K)) (tol : K) (x : List K) (error : K), (setup = .matrix → fits) → (∀ s ∈ solvers, Accurate tol s) →
    program W setup solvers = .ok (x, error) → ∃ X y r0 : Fin M → K, x = List.ofFn X ∧ Z X ∧ W.trace_to_flux x = .ok (List.ofFn y) ∧ W.residual_flux W.zero_vector = .ok (List.ofFn r0) ∧
      ∑ k, (y k + r0 k) ^ 2 ≤ tol ^ 2 * ∑ k, r0 k ^ 2 ∧ ∃ rest, W.errors x = .ok (error :: rest)
  /-- It does return, if one of the linear solvers finds solutions of solvable systems and none of them raises exceptions. -/
  returns : ∀ (setup : Setup) (solvers : List (LinearSolver K)) (tol : K), (setup = .matrix → fits) → (∀ s ∈ solvers, Accurate tol s) → (∀ s ∈ solvers, Total s) → (∀ s ∈ solvers, Local s) →
    (∃ s ∈ solvers, Complete s) → ∃ x error, program W setup solvers = .ok (x, error)
  /-- The system has exactly one solution, and the program returns it if the linear solvers are exact. -/
  exact : ∃ y : Fin M → K, (∀ y', (Z y' ∧ ∃ r0 : Fin M → K, W.residual_flux W.zero_vector = .ok (List.ofFn r0) ∧ W.trace_to_flux (List.ofFn y') = .ok (List.ofFn (-r0))) ↔ y' = y) ∧
    ∀ (setup : Setup) (solvers : List (LinearSolver K)) (x : List K) (error : K), (setup = .matrix → fits) → (∀ s ∈ solvers, Accurate 0 s) → program W setup solvers = .ok (x, error) → x = List.ofFn y

/-- From properties of a local solver to the programs, without assuming that the residual is affine. -/
theorem solves_system_of (m : Mode) (G : HyGraph dim n) (nodes : Fin G.n_hyEdges → Fin (2 * dim) → Fin G.n_hyNodes) (hwf : G.WF nodes) (D : Fin G.n_hyNodes → Prop) (ttf res : LocalFun dim n K)
    (err : Nat → LocDofs dim n K → Res (Fin N → K)) (sqrt : K → K) (old0 new0 : LocDofs dim n K)
    (hret : ∀ (e : Fin G.n_hyEdges) (u : LocDofs dim n K), ∃ y, ttf e u (fun _ _ => 0) = .ok y) (hr0 : ∀ e : Fin G.n_hyEdges, ∃ r, res e (fun _ _ => 0) (fun _ _ => 0) = .ok r)
    (hlin : ∀ (e : Fin G.n_hyEdges) (u v y z : LocDofs dim n K), ttf e u (fun _ _ => 0) = .ok y → ttf e v (fun _ _ => 0) = .ok z → ∀ a b : K, ttf e (a • u + b • v) (fun _ _ => 0) = .ok (a • y + b • z))
    (hzero : ∀ (e : Fin G.n_hyEdges) (u y : LocDofs dim n K), (ttf e u (fun _ _ => 0) = .ok y ∨ res e u (fun _ _ => 0) = .ok y) → ∀ f, D (nodes e f) → y f = 0)
    (herr : ∀ (e : Fin G.n_hyEdges) u, ∃ a, err e u = .ok a) (hN : 0 < N) (R : Fin (G.n_hyNodes * n) → K)
    (hR : G.mat_vec_multiply m res old0 new0 (List.ofFn (0 : Fin (G.n_hyNodes * n) → K)) = .ok (List.ofFn R))
    (hone : ∃! y : Fin (G.n_hyNodes * n) → K, VanishesAt D y ∧ G.mat_vec_multiply m ttf old0 new0 (List.ofFn y) = .ok (List.ofFn (-R))) :
    SolvesSystem (wrapper m G ttf res err sqrt old0 new0) (G.n_hyNodes * n) (VanishesAt D) (G.n_hyEdges * (2 * dim * n) ^ 2 < U32) := by
  choose R0 hR0 using hr0
  choose F hF using hret
  have hlin' : ∀ (e : Fin G.n_hyEdges) (a b : K) (x y : LocDofs dim n K), F e (a • x + b • y) = a • F e x + b • F e y := fun e a b x y => by
    have := hlin e x y _ _ (hF e x) (hF e y) a b
    rw [hF] at this
    exact Res.ok.inj this
  let L : Fin G.n_hyEdges → LocDofs dim n K →ₗ[K] LocDofs dim n K := fun e =>
    { toFun := F e
      map_add' := fun x y => by
        have := hlin' e 1 1 x y
        simpa only [one_smul] using this
      map_smul' := fun a x => by
        have := hlin' e a 0 x 0
        simpa only [zero_smul, add_zero, RingHom.id_apply] using this }
  have hL : IsLinear G nodes D ttf res L R0 := ⟨fun e u => hF e u, hR0, fun e u f h => hzero e u _ (.inl (hF e u)) f h, fun e f h => hzero e _ _ (.inr (hR0 e)) f h⟩
  have hRR : R = assemble nodes R0 := by
    have h := mat_vec_eq m G nodes hwf res 0 R0 (fun e => hR0 e) old0 new0
    rw [hR] at h
    exact List.ofFn_injective (Res.ok.inj h)
  have hz : (wrapper m G ttf res err sqrt old0 new0).residual_flux (wrapper m G ttf res err sqrt old0 new0).zero_vector = .ok (List.ofFn R) := by
    rw [zero_eq m G nodes hwf]
    exact (C23_fresh m G res old0 new0 _).trans hR
  have hone' : ∃! y : Fin (G.n_hyNodes * n) → K, VanishesAt D y ∧ (Elliptic.mk' G).apply m ttf old0 new0 (List.ofFn y) = .ok (List.ofFn (-assemble nodes R0)) := by
    simpa only [C23_fresh, hRR] using hone
  refine ⟨fun setup solvers tol x error hf hs h => ?_, fun setup solvers tol hf hacc ht hl hc => ?_, ?_⟩
  · obtain ⟨X, y, r, rfl, h1, h2, h3, h4, h5, _⟩ := C95_result m G nodes hwf D hL err sqrt old0 new0 setup hf hs h
    exact ⟨X, y, r, rfl, h1, h2, h3, h4, h5⟩
  · obtain ⟨s, hs, hc⟩ := hc
    exact C95_returns m G nodes hwf D hL err sqrt old0 new0 hone' setup hf hs hc ht hl hacc hN herr
  · have hone'' := hone'
    obtain ⟨y, hy, hy'⟩ := hone'
    refine ⟨y, fun y' => ⟨fun ⟨h1, r0, h2, h3⟩ => hy' y' ⟨h1, ?_⟩, ?_⟩, fun setup solvers x error hf hs h => C95_exact m G nodes hwf D hL err sqrt old0 new0 hone'' setup hf hs h y hy.1 hy.2⟩
    · rw [hz] at h2
      rw [← hRR, List.ofFn_injective (Res.ok.inj h2)]
      exact h3
    · rintro rfl
      exact ⟨hy.1, R, hz, hRR ▸ hy.2⟩

/-- From properties of a local solver to the programs. -/
theorem correct_of (m : Mode) (G : HyGraph dim n) (nodes : Fin G.n_hyEdges → Fin (2 * dim) → Fin G.n_hyNodes) (hwf : G.WF nodes) (D : Fin G.n_hyNodes → Prop) (ttf res : LocalFun dim n K)
    (err : Nat → LocDofs dim n K → Res (Fin N → K)) (sqrt : K → K) (old0 new0 : LocDofs dim n K)
    (haff : ∀ (e : Fin G.n_hyEdges) (u : LocDofs dim n K), ∃ y r, ttf e u (fun _ _ => 0) = .ok y ∧ res e (fun _ _ => 0) (fun _ _ => 0) = .ok r ∧ res e u (fun _ _ => 0) = .ok (y + r))
    (hlin : ∀ (e : Fin G.n_hyEdges) (u v y z : LocDofs dim n K), ttf e u (fun _ _ => 0) = .ok y → ttf e v (fun _ _ => 0) = .ok z → ∀ a b : K, ttf e (a • u + b • v) (fun _ _ => 0) = .ok (a • y + b • z))
    (hzero : ∀ (e : Fin G.n_hyEdges) (u y : LocDofs dim n K), (ttf e u (fun _ _ => 0) = .ok y ∨ res e u (fun _ _ => 0) = .ok y) → ∀ f, D (nodes e f) → y f = 0)
    (herr : ∀ (e : Fin G.n_hyEdges) u, ∃ a, err e u = .ok a) (hN : 0 < N)
    (hone : ∃! y : Fin (G.n_hyNodes * n) → K, VanishesAt D y ∧ G.mat_vec_multiply m res old0 new0 (List.ofFn y) = .ok (List.replicate (G.n_hyNodes * n) 0)) :
    Correct (wrapper m G ttf res err sqrt old0 new0) (G.n_hyNodes * n) (VanishesAt D) (G.n_hyEdges * (2 * dim * n) ^ 2 < U32) := by
  have hr0 : ∀ e : Fin G.n_hyEdges, ∃ r, res e (fun _ _ => 0) (fun _ _ => 0) = .ok r := fun e => by
    obtain ⟨_, r, _, h, _⟩ := haff e 0
    exact ⟨r, h⟩
  choose R0 hR0 using hr0
  have hret : ∀ (e : Fin G.n_hyEdges) (u : LocDofs dim n K), ∃ y, ttf e u (fun _ _ => 0) = .ok y := fun e u => by
    obtain ⟨y, _, h, _, _⟩ := haff e u
    exact ⟨y, h⟩
  choose F hF using hret
  have hlin' : ∀ (e : Fin G.n_hyEdges) (a b : K) (x y : LocDofs dim n K), F e (a • x + b • y) = a • F e x + b • F e y := fun e a b x y => by
    have := hlin e x y _ _ (hF e x) (hF e y) a b
    rw [hF] at this
    exact Res.ok.inj this
  let L : Fin G.n_hyEdges → LocDofs dim n K →ₗ[K] LocDofs dim n K := fun e =>
    { toFun := F e
      map_add' := fun x y => by
        have := hlin' e 1 1 x y
        simpa only [one_smul] using this
      map_smul' := fun a x => by
        have := hlin' e a 0 x 0
        simpa only [zero_smul, add_zero, RingHom.id_apply] using this }
  have hL : IsLinear G nodes D ttf res L R0 := ⟨fun e u => hF e u, hR0, fun e u f h => hzero e u _ (.inl (hF e u)) f h, fun e f h => hzero e _ _ (.inr (hR0 e)) f h⟩
  have haff' : ∀ (e : Fin G.n_hyEdges) u, res e u (fun _ _ => 0) = .ok (L e u + R0 e) := fun e u => by
    obtain ⟨y, r, h1, h2, h3⟩ := haff e u
    rw [hF] at h1
    rw [hR0] at h2
    rw [h3, ← Res.ok.inj h1, ← Res.ok.inj h2]
    rfl
  have hiff : ∀ y : Fin (G.n_hyNodes * n) → K, G.mat_vec_multiply m res old0 new0 (List.ofFn y) = .ok (List.replicate (G.n_hyNodes * n) 0) ↔
      (Elliptic.mk' G).apply m ttf old0 new0 (List.ofFn y) = .ok (List.ofFn (-assemble nodes R0)) := fun y => by
    rw [C23_fresh, mat_vec_eq m G nodes hwf res y _ (fun e => haff' e _) old0 new0, mat_vec_eq m G nodes hwf ttf y _ (fun e => hF e _) old0 new0, assemble_sum_add, ← List.ofFn_const]
    constructor
    · intro h
      have := List.ofFn_injective (Res.ok.inj h)
      exact congrArg (fun v => Res.ok (List.ofFn v)) (eq_neg_of_add_eq_zero_left this)
    · intro h
      have := List.ofFn_injective (Res.ok.inj h)
      refine congrArg (fun v => Res.ok (List.ofFn v)) ?_
      show assemble nodes (fun e => F e (faceValues nodes y e)) + _ = _
      rw [this, neg_add_cancel]
      rfl
  have hone' : ∃! y : Fin (G.n_hyNodes * n) → K, VanishesAt D y ∧ (Elliptic.mk' G).apply m ttf old0 new0 (List.ofFn y) = .ok (List.ofFn (-assemble nodes R0)) := by
    simpa only [hiff] using hone
  refine ⟨fun setup solvers tol x error hf hs h => ?_, fun setup solvers tol hf hacc ht hl hc => ?_, ?_⟩
  · obtain ⟨X, y, r, rfl, h1, _, h3, h4, h5, h6⟩ := C95_result m G nodes hwf D hL err sqrt old0 new0 setup hf hs h
    exact ⟨X, r, y + r, rfl, h1, h3, h6 haff', h4, h5⟩
  · obtain ⟨s, hs, hc⟩ := hc
    exact C95_returns m G nodes hwf D hL err sqrt old0 new0 hone' setup hf hs hc ht hl hacc hN herr
  · obtain ⟨y, hy, hy'⟩ := hone
    refine ⟨y, fun y' => ⟨fun h => hy' y' ⟨h.1, ?_⟩, ?_⟩, fun setup solvers x error hf hs h => C95_exact m G nodes hwf D hL err sqrt old0 new0 hone' setup hf hs h y hy.1 ((hiff y).mp hy.2)⟩
    · have h2 := h.2
      rwa [show (wrapper m G ttf res err sqrt old0 new0).residual_flux (List.ofFn y') = G.mat_vec_multiply m res old0 new0 (List.ofFn y') from C23_fresh m G res old0 new0 _] at h2
    · rintro rfl
      exact ⟨hy.1, (C23_fresh m G res old0 new0 _).trans hy.2⟩

omit [LinearOrder K] [IsStrictOrderedRing K] in
theorem fold_sum (l : List (Fin N → K)) : ∀ a : Fin N → K, l.foldl (fun a b i => a i + b i) a = a + l.sum := by
  induction l with
  | nil => intro a; simp
  | cons b l ih =>
    intro a
    rw [List.foldl_cons, ih, List.sum_cons, ← add_assoc]
    rfl

omit [LinearOrder K] [IsStrictOrderedRing K] in
/-- The errors which the object returns: the square roots of the sums of the squared errors of the hyperedges. -/
theorem errors_sum (m : Mode) (G : HyGraph dim n) (nodes : Fin G.n_hyEdges → Fin (2 * dim) → Fin G.n_hyNodes) (hwf : G.WF nodes) (ttf res : LocalFun dim n K)
    (err : Nat → LocDofs dim n K → Res (Fin N → K)) (sqrt : K → K) (old0 new0 : LocDofs dim n K) (X : Fin (G.n_hyNodes * n) → K) (a : Fin G.n_hyEdges → Fin N → K)
    (h : ∀ e : Fin G.n_hyEdges, err e (faceValues nodes X e) = .ok (a e)) : (wrapper m G ttf res err sqrt old0 new0).errors (List.ofFn X) = .ok (List.ofFn fun i => sqrt (∑ e, a e i)) := by
  show (G.errors m (arrayErrorDef N sqrt) err old0 (List.ofFn X) >>= _) = _
  rw [C40_fold m G nodes hwf (arrayErrorDef N sqrt) err old0 X a h, Res.ok_bind]
  refine congrArg (fun v => Res.ok (List.ofFn v)) (funext fun i => congrArg sqrt ?_)
  have := congrFun (fold_sum (List.ofFn a) (fun _ => 0)) i
  refine this.trans ?_
  rw [List.sum_ofFn, Pi.add_apply, Finset.sum_apply, zero_add]

omit [LinearOrder K] [IsStrictOrderedRing K] in
theorem errors_one (m : Mode) (G : HyGraph dim n) (nodes : Fin G.n_hyEdges → Fin (2 * dim) → Fin G.n_hyNodes) (hwf : G.WF nodes) (ttf res : LocalFun dim n K)
    (err : Nat → LocDofs dim n K → Res (Fin 1 → K)) (sqrt : K → K) (old0 new0 : LocDofs dim n K) (X : Fin (G.n_hyNodes * n) → K) (a : Fin G.n_hyEdges → K)
    (h : ∀ e : Fin G.n_hyEdges, err e (faceValues nodes X e) = .ok (fun _ => a e)) : (wrapper m G ttf res err sqrt old0 new0).errors (List.ofFn X) = .ok [sqrt (∑ e, a e)] :=
  errors_sum m G nodes hwf ttf res err sqrt old0 new0 X (fun e _ => a e) h

end

end HyperHDG.EllipticPython

/-! ## Diffusion -/

namespace HyperHDG.Diffusion

open EllipticPython HyGraph Spec

variable {dim nS nB : Nat} {K : Type} [Field K] [LinearOrder K] [IsStrictOrderedRing K] (m : Mode) (gesv : Gesv ((dim + 1) * nS) 1 K) (hg : GesvSpec gesv) (tau : K) (ht : 0 < tau)
  (E : Nat → Edge dim nS K) (hE : ∀ e, FormLaws (form (E e) nB 0)) (hR : ∀ e, Rigid (form (E e) nB 0))
  (G : HyGraph dim nB) (nodes : Fin G.n_hyEdges → Fin (2 * dim) → Fin G.n_hyNodes) (hwf : G.WF nodes)
  (D : Fin G.n_hyNodes → Prop) (hD : ∀ (e : Fin G.n_hyEdges) (f : Fin (2 * dim)), (E e).node_descriptor f ∈ (E e).dirichlet_nodes ↔ D (nodes e f))
  (hcon : Anchored nodes D) (sqrt : K → K) (old0 new0 : LocDofs dim nB K)

/-- The object of the programs for `Diffusion`. -/
abbrev python : Wrapper K := wrapper m G (localOperator m gesv tau E 0) (EllipticProgram.localResidual m gesv tau E 0) (fun e u => errors m gesv tau u (E e) 0) sqrt old0 new0

include hg ht hE hR hwf hD hcon

/-- The programs with any function `err` for the errors. -/
theorem programs {N : Nat} (hN : 0 < N) (err : Nat → LocDofs dim nB K → Res (Fin N → K)) (herr : ∀ (e : Fin G.n_hyEdges) u, ∃ a, err e u = .ok a) :
    Correct (wrapper m G (localOperator m gesv tau E 0) (EllipticProgram.localResidual m gesv tau E 0) err sqrt old0 new0) (G.n_hyNodes * nB) (VanishesAt D)
      (G.n_hyEdges * (2 * dim * nB) ^ 2 < U32) := by
  have hs := fun e => (C21_solvable m gesv hg tau (E e) 0 (hE e) ht (0 : LocDofs dim nB K) 0).1
  refine correct_of m G nodes hwf D _ _ _ sqrt old0 new0 (fun e u => C21_affine m gesv hg tau (E e) 0 (hs e) u _ _ _) (fun e u v y z h1 h2 a b => C21_linear m gesv hg tau (E e) 0 h1 h2 a b _)
    (fun e u y h f hf => funext fun j => C21_dirichlet_zero m gesv hg tau (E e) 0 u _ y h f ((hD e f).mpr hf) j) herr hN ?_
  have h := EllipticProgram.C54_unique m gesv hg tau ht E 0 hE hR G nodes hwf D hD hcon old0 new0
  simpa only [C23_fresh] using h

/-- **C95** (`Diffusion`).  The programs for diffusion problems solve the discrete problem, under the hypotheses of C54.  The error they report is the square root of the sum, over all hyperedges, of the
squared error of the local solution for the computed trace. -/
theorem C95_diffusion : Correct (python m gesv tau E G sqrt old0 new0) (G.n_hyNodes * nB) (VanishesAt D) (G.n_hyEdges * (2 * dim * nB) ^ 2 < U32) ∧
    ∀ X : Fin (G.n_hyNodes * nB) → K, ∃ (q : Fin G.n_hyEdges → Fin dim → Fin nS → K) (u : Fin G.n_hyEdges → Fin nS → K),
      (∀ e : Fin G.n_hyEdges, IsSolution (form (E e) nB 0) tau 0 1 (moments (form (E e) nB 0) (faceValues nodes X e) + dirichletMoments (E e) 0) (source (E e) 0) (q e) (u e)) ∧
      (python m gesv tau E G sqrt old0 new0).errors (List.ofFn X) = .ok [sqrt (∑ e : Fin G.n_hyEdges, (E e).vol_diffsquare 0 (u e))] := by
  have hs := fun e => (C21_solvable m gesv hg tau (E e) 0 (hE e) ht (0 : LocDofs dim nB K) 0).1
  refine ⟨programs m gesv hg tau ht E hE hR G nodes hwf D hD hcon sqrt old0 new0 one_pos _ fun e u => ?_, fun X => ?_⟩
  · obtain ⟨_, _, _, h⟩ := C48_errors m gesv hg tau (E e) 0 (hs e) u
    exact ⟨_, h⟩
  · choose q u h1 h2 using fun e : Fin G.n_hyEdges => C48_errors m gesv hg tau (E e) 0 (hs e) (faceValues nodes X e)
    exact ⟨q, u, h1, errors_one m G nodes hwf _ _ _ sqrt old0 new0 X _ h2⟩

end HyperHDG.Diffusion

/-! ## Diffusion with postprocessing -/

namespace HyperHDG.DiffusionPostprocess

open EllipticPython HyGraph Spec Diffusion

variable {dim nS nP nB : Nat} {K : Type} [Field K] [LinearOrder K] [IsStrictOrderedRing K]

/-- **C95** (`DiffusionPostprocess`).  The programs with postprocessing solve the same discrete problem; the error they report is that of the postprocessed functions. -/
theorem C95_postprocess (m : Mode) (gesv : Gesv ((dim + 1) * nS) 1 K) (hg : GesvSpec gesv) (gesv_pp : Gesv nP 1 K) (hgp : GesvSpec gesv_pp) (tau : K) (ht : 0 < tau) (E : Nat → Edge dim nS nP K)
    (hP : 0 < nP) (hS : 0 < nS) (hC : ∀ e, ConstantFirst (E e) 0) (hp : ∀ e, Postprocessable (postForm (E e) 0)) (hE : ∀ e, FormLaws (form (E e).toEdge nB 0))
    (hR : ∀ e, Rigid (form (E e).toEdge nB 0)) (G : HyGraph dim nB) (nodes : Fin G.n_hyEdges → Fin (2 * dim) → Fin G.n_hyNodes) (hwf : G.WF nodes) (D : Fin G.n_hyNodes → Prop)
    (hD : ∀ (e : Fin G.n_hyEdges) (f : Fin (2 * dim)), (E e).toEdge.node_descriptor f ∈ (E e).toEdge.dirichlet_nodes ↔ D (nodes e f)) (hcon : Anchored nodes D) (sqrt : K → K)
    (old0 new0 : LocDofs dim nB K) (W : Wrapper K)
    (hW : W = wrapper m G (Diffusion.localOperator m gesv tau (fun e => (E e).toEdge) 0) (EllipticProgram.localResidual m gesv tau (fun e => (E e).toEdge) 0)
      (fun e u => DiffusionPostprocess.errors m gesv gesv_pp tau u (E e) 0) sqrt old0 new0) :
    Correct W (G.n_hyNodes * nB) (VanishesAt D) (G.n_hyEdges * (2 * dim * nB) ^ 2 < U32) ∧
    ∀ X : Fin (G.n_hyNodes * nB) → K, ∃ (q : Fin G.n_hyEdges → Fin dim → Fin nS → K) (u : Fin G.n_hyEdges → Fin nS → K) (w : Fin G.n_hyEdges → Fin nP → K),
      (∀ e : Fin G.n_hyEdges, IsSolution (form (E e).toEdge nB 0) tau 0 1 (moments (form (E e).toEdge nB 0) (faceValues nodes X e) + dirichletMoments (E e).toEdge 0) (source (E e).toEdge 0)
        (q e) (u e) ∧ IsPostprocessed (postForm (E e) 0) (q e) (u e) (w e)) ∧
      W.errors (List.ofFn X) = .ok [sqrt (∑ e : Fin G.n_hyEdges, (E e).pp_diffsquare 0 (w e))] := by
  subst hW
  have hs := fun e => (C21_solvable m gesv hg tau (E e).toEdge 0 (hE e) ht (0 : LocDofs dim nB K) 0).1
  refine ⟨Diffusion.programs m gesv hg tau ht (fun e => (E e).toEdge) hE hR G nodes hwf D hD hcon sqrt old0 new0 one_pos _ fun e u => ?_, fun X => ?_⟩
  · obtain ⟨_, _, _, _, _, _, h⟩ := C78_errors m gesv hg gesv_pp hgp tau (E e) 0 hP hS (hC e) (hs e) (hp e) u
    exact ⟨_, h⟩
  · choose q u w h1 h2 _ h3 using fun e : Fin G.n_hyEdges => C78_errors m gesv hg gesv_pp hgp tau (E e) 0 hP hS (hC e) (hs e) (hp e) (faceValues nodes X e)
    exact ⟨q, u, w, fun e => ⟨h1 e, h2 e⟩, errors_one m G nodes hwf _ _ _ sqrt old0 new0 X _ h3⟩

end HyperHDG.DiffusionPostprocess

/-! ## Interior penalty -/

namespace HyperHDG.DiffusionIP

open EllipticPython HyGraph
open Spec hiding Form IsSolution faceFlux Solvable moments IsTrace Rigid traceOf
open Spec.IP

variable {dim nS nB : Nat} {K : Type} [Field K] [LinearOrder K] [IsStrictOrderedRing K]

/-- **C95** (`DiffusionIP`).  The programs with the interior penalty method solve the discrete problem, under the hypotheses of C80. -/
theorem C95_interior_penalty (m : Mode) (gesv : Gesv nS 1 K) (hg : GesvSpec gesv) (tau : K) (ht : 0 < tau) (E : Nat → Edge dim nS K) (C : Nat → K) (hE : ∀ e, Laws (form (E e) nB 0) (C e))
    (hC : ∀ e, C e < 4 * tau) (hR : ∀ e, Rigid (form (E e) nB 0)) (G : HyGraph dim nB) (nodes : Fin G.n_hyEdges → Fin (2 * dim) → Fin G.n_hyNodes) (hwf : G.WF nodes)
    (D : Fin G.n_hyNodes → Prop) (hD : ∀ (e : Fin G.n_hyEdges) (f : Fin (2 * dim)), (E e).node_descriptor f ∈ (E e).dirichlet_nodes ↔ D (nodes e f)) (hcon : Anchored nodes D) (sqrt : K → K)
    (old0 new0 : LocDofs dim nB K) (W : Wrapper K)
    (hW : W = wrapper m G (localOperator m gesv tau E 0) (localResidual m gesv tau E 0) (fun e u => errors m gesv tau u (E e) 0) sqrt old0 new0) :
    Correct W (G.n_hyNodes * nB) (VanishesAt D) (G.n_hyEdges * (2 * dim * nB) ^ 2 < U32) ∧
    ∀ X : Fin (G.n_hyNodes * nB) → K, ∃ u : Fin G.n_hyEdges → Fin nS → K,
      (∀ e : Fin G.n_hyEdges, IsSolution (form (E e) nB 0) tau (moments (form (E e) nB 0) (faceValues nodes X e) + dirichletMoments (E e) 0) (source (E e) 0) (u e)) ∧
      W.errors (List.ofFn X) = .ok [sqrt (∑ e : Fin G.n_hyEdges, (E e).vol_diffsquare 0 (u e))] := by
  subst hW
  have hs := fun e => solvable_of (hE e) ht (hC e)
  refine ⟨correct_of m G nodes hwf D _ _ _ sqrt old0 new0 (fun e u => C79_affine m gesv hg tau (E e) 0 (hs e) u _ _ _) (fun e u v y z h1 h2 a b => C79_linear m gesv hg tau (E e) 0 h1 h2 a b _)
    (fun e u y h f hf => funext fun j => C79_dirichlet_zero m gesv hg tau (E e) 0 u _ y h f ((hD e f).mpr hf) j) (fun e u => ?_) one_pos
    (C80_unique m gesv hg tau ht E 0 C hE hC G nodes hwf old0 new0 hR D hD hcon), fun X => ?_⟩
  · obtain ⟨_, _, h⟩ := C79_errors m gesv hg tau (E e) 0 (hs e) u
    exact ⟨_, h⟩
  · choose u h1 h2 using fun e : Fin G.n_hyEdges => C79_errors m gesv hg tau (E e) 0 (hs e) (faceValues nodes X e)
    exact ⟨u, h1, errors_one m G nodes hwf _ _ _ sqrt old0 new0 X _ h2⟩

end HyperHDG.DiffusionIP

/-! ## Diffusion, advection and reaction -/

namespace HyperHDG.DAR

open EllipticPython HyGraph
open Spec hiding IsSolution Solvable solution_lin solution_unique flux_test primal_test
open Spec.DAR
open Diffusion (form dirichletMoments source)

variable {dim nS nB : Nat} {K : Type} [Field K] [LinearOrder K] [IsStrictOrderedRing K] (m : Mode) (gesv : Gesv ((dim + 1) * nS) 1 K) (hg : GesvSpec gesv) (tau : K) (E : Nat → Edge dim nS K)
  (hE : ∀ e, FormLaws (form (E e).toEdge nB 0))
  (G : HyGraph dim nB) (nodes : Fin G.n_hyEdges → Fin (2 * dim) → Fin G.n_hyNodes) (hwf : G.WF nodes)
  (D : Fin G.n_hyNodes → Prop) (hD : ∀ (e : Fin G.n_hyEdges) (f : Fin (2 * dim)), (E e).node_descriptor f ∈ (E e).dirichlet_nodes ↔ D (nodes e f))
  (sqrt : K → K) (old0 new0 : LocDofs dim nB K)

/-- The object of the programs for diffusion, advection and reaction. -/
abbrev python : Wrapper K := wrapper m G (localOperator m gesv tau E 0) (localResidual m gesv tau E 0) (fun e u => errors m gesv tau u (E e) 0) sqrt old0 new0

include hg hwf hD

theorem programs (hs : ∀ e, Solvable (form (E e).toEdge nB 0) (coeffs (E e) 0 0) tau) (hone : ∃! y : Fin (G.n_hyNodes * nB) → K, VanishesAt D y ∧
      G.mat_vec_multiply m (localResidual m gesv tau E 0) old0 new0 (List.ofFn y) = .ok (List.replicate (G.n_hyNodes * nB) 0)) :
    Correct (python m gesv tau E G sqrt old0 new0) (G.n_hyNodes * nB) (VanishesAt D) (G.n_hyEdges * (2 * dim * nB) ^ 2 < U32) :=
  correct_of m G nodes hwf D _ _ _ sqrt old0 new0 (fun e u => C81_affine m gesv hg tau (E e) 0 (hs e) u _ _ _) (fun e u v y z h1 h2 a b => C81_linear m gesv hg tau (E e) 0 h1 h2 a b _)
    (fun e u y h f hf => funext fun j => C81_dirichlet_zero m gesv hg tau (E e) 0 u _ y h f ((hD e f).mpr hf) j)
    (fun e u => (C81_errors m gesv hg tau (E e) 0 (hs e) u).elim fun _ h => h.elim fun _ h => ⟨_, h.2⟩) one_pos hone

omit hD [LinearOrder K] [IsStrictOrderedRing K] in
/-- **C95** (errors of diffusion, advection and reaction).  The error which is reported is that of the local solutions for the computed trace. -/
theorem C95_dar_errors (hs : ∀ e, Solvable (form (E e).toEdge nB 0) (coeffs (E e) 0 0) tau) (X : Fin (G.n_hyNodes * nB) → K) :
    ∃ (q : Fin G.n_hyEdges → Fin dim → Fin nS → K) (u : Fin G.n_hyEdges → Fin nS → K),
      (∀ e : Fin G.n_hyEdges, IsSolution (form (E e).toEdge nB 0) (coeffs (E e) 0 0) tau (moments (form (E e).toEdge nB 0) (faceValues nodes X e) + dirichletMoments (E e).toEdge 0)
        (source (E e).toEdge 0) (q e) (u e)) ∧
      (python m gesv tau E G sqrt old0 new0).errors (List.ofFn X) = .ok [sqrt (∑ e : Fin G.n_hyEdges, (E e).vol_diffsquare 0 (u e))] := by
  choose q u h1 h2 using fun e : Fin G.n_hyEdges => C81_errors m gesv hg tau (E e) 0 (hs e) (faceValues nodes X e)
  exact ⟨q, u, h1, errors_one m G nodes hwf _ _ _ sqrt old0 new0 X _ h2⟩

include hE

/-- **C95** (diffusion, advection and reaction, dominated).  The programs solve the discrete problem if diffusion and reaction dominate the advection, see C82. -/
theorem C95_dar_dominated (ht : 0 < tau) (hC : ∀ e, Dominated (form (E e).toEdge nB 0) (coeffs (E e) 0 0)) (hcov : ∀ v, ¬ D v → ∃ e f, nodes e f = v) :
    Correct (python m gesv tau E G sqrt old0 new0) (G.n_hyNodes * nB) (VanishesAt D) (G.n_hyEdges * (2 * dim * nB) ^ 2 < U32) :=
  programs m gesv hg tau E G nodes hwf D hD sqrt old0 new0 (fun e => solvable_dominated (hE e) ht.le (hC e)) (C82_unique_dominated m gesv hg tau E 0 G nodes hwf old0 new0 hE ht hC D hD hcov)

/-- **C95** (diffusion, advection and reaction, constant velocity).  The programs solve the discrete problem if the velocity is constant on each hyperedge and balanced at the hypernodes, see C82. -/
theorem C95_dar_constant (hR : ∀ e, Rigid (form (E e).toEdge nB 0)) (b : Nat → Fin dim → K) (hC : ∀ e, ConstantVelocity (form (E e).toEdge nB 0) (coeffs (E e) 0 0) (b e))
    (ht : ∀ e f, 0 < tau + normalVelocity (form (E e).toEdge nB 0) (b e) f / 2)
    (hB : Balanced nodes (fun e f => normalVelocity (form (E e).toEdge nB 0) (b e) f * (E e).face_area f) D) (hcon : Anchored nodes D) :
    Correct (python m gesv tau E G sqrt old0 new0) (G.n_hyNodes * nB) (VanishesAt D) (G.n_hyEdges * (2 * dim * nB) ^ 2 < U32) :=
  programs m gesv hg tau E G nodes hwf D hD sqrt old0 new0 (fun e => solvable_const (hE e) (hC e) (ht e)) (C82_unique m gesv hg tau E 0 G nodes hwf old0 new0 hE hR b hC ht D hD hB hcon)

end HyperHDG.DAR

/-! ## Beams -/

namespace HyperHDG.Timoshenko

open EllipticPython HyGraph Spec
open scoped Matrix

variable {nS : Nat} {K : Type} [Field K] [LinearOrder K] [IsStrictOrderedRing K]

/-- **C95** (`TimoshenkoBeam`).  The programs for networks of beams find the equilibrium, under the hypotheses of C69. -/
theorem C95_beams (m : Mode) (gesv : Gesv (n_loc_dofs nS) 1 K) (hg : GesvSpec gesv) (tau : K) (ht : 0 < tau) (E : Nat → Edge nS K) (hE : ∀ e, Complete (E e)) (hc : ∀ e d, coefficients (E e) d ≠ 0)
    (hF : ∀ e, FormLaws (form (E e))) (hR : ∀ e, Rigid (form (E e))) (hO : ∀ e, (frame (E e))ᵀ * frame (E e) = 1) (G : HyGraph 1 6)
    (nodes : Fin G.n_hyEdges → Fin (2 * 1) → Fin G.n_hyNodes) (hwf : G.WF nodes) (D : Fin G.n_hyNodes → Prop)
    (hD : ∀ (e : Fin G.n_hyEdges) (f : Fin (2 * 1)), (E e).node_descriptor f ∈ (E e).dirichlet_nodes ↔ D (nodes e f)) (hcon : Anchored nodes D) (sqrt : K → K) (old0 new0 : LocDofs 1 6 K) (W : Wrapper K)
    (hW : W = wrapper m G (localOperator m gesv tau E 0) (localResidual m gesv tau E 0) (fun e u => errors m gesv tau u (E e) 0) sqrt old0 new0) :
    Correct W (G.n_hyNodes * 6) (VanishesAt D) (G.n_hyEdges * (2 * 1 * 6) ^ 2 < U32) ∧
    ∀ X : Fin (G.n_hyNodes * 6) → K, ∃ q u : Fin G.n_hyEdges → Fin 6 → Fin nS → K, (∀ e : Fin G.n_hyEdges, IsBeam (form (E e)) (coefficients (E e)) tau
        (beamMoments (form (E e)) (beamEnds (E e) (faceValues nodes X e)) + dirichletMoments (E e)) (source (E e)) (q e) (u e)) ∧
      W.errors (List.ofFn X) = .ok [sqrt (∑ e : Fin G.n_hyEdges, ((E e).vol_diffsquare (u e 0) 1 0 + (E e).vol_diffsquare (u e 1) (-1) 0 + (E e).vol_diffsquare (u e 2) (-2) 0))] := by
  subst hW
  have hs := fun e => (C68_solvable m gesv hg tau (E e) 0 (hE e) (hc e) (hF e) ht 0 0).1
  refine ⟨correct_of m G nodes hwf D _ _ _ sqrt old0 new0 (fun e u => C68_affine m gesv hg tau (E e) 0 (hE e) (hc e) (hs e) u)
    (fun e u v y z h1 h2 a b => C68_linear m gesv hg tau (E e) 0 (hE e) (hc e) h1 h2 a b)
    (fun e u y h f hf => C68_dirichlet_zero m gesv tau (E e) 0 u _ y h f ((hD e f).mpr hf)) (fun e u => ?_) one_pos
    (C69_unique m gesv hg tau ht E 0 hE hc hF G nodes hwf old0 new0 hR hO D hD hcon), fun X => ?_⟩
  · obtain ⟨_, _, _, h⟩ := C68_errors m gesv hg tau (E e) 0 (hE e) (hc e) (hs e) u
    exact ⟨_, h⟩
  · choose q u h1 h2 using fun e : Fin G.n_hyEdges => C68_errors m gesv hg tau (E e) 0 (hE e) (hc e) (hs e) (faceValues nodes X e)
    exact ⟨q, u, h1, errors_one m G nodes hwf _ _ _ sqrt old0 new0 X _ h2⟩

end HyperHDG.Timoshenko

/-! ## Plates -/

namespace HyperHDG.Bilaplacian

open EllipticPython HyGraph Spec LDG Mixed

variable {dim nS nB : Nat} {K : Type} [Field K] [LinearOrder K] [IsStrictOrderedRing K]

/-- **C95** (`Bilaplacian`).  The programs for simply supported plates solve the linear system of C61; the residual is not affine (C60), so that this does not make it vanish. -/
theorem C95_plates (m : Mode) (gesv : Gesv (n_loc_dofs dim nS) 1 K) (hg : GesvSpec gesv) (tau : K) (ht : 0 < tau) (E : Nat → Edge dim nS K) (hE : ∀ e, FormLaws (form (E e) nB))
    (hpos : ∀ e c, 0 ≤ (E e).vol_diffsquare 0 c) (hR : ∀ e, Rigid (form (E e) nB)) (G : HyGraph dim (2 * nB)) (nodes : Fin G.n_hyEdges → Fin (2 * dim) → Fin G.n_hyNodes) (hwf : G.WF nodes)
    (D : Fin G.n_hyNodes → Prop) (hD : ∀ (e : Fin G.n_hyEdges) (f : Fin (2 * dim)), (E e).node_descriptor f ∈ (E e).dirichlet_nodes ↔ D (nodes e f))
    (hD' : ∀ (e : Fin G.n_hyEdges) (f : Fin (2 * dim)), (E e).node_descriptor f ∈ (E e).dirichlet_laplacian_nodes ↔ D (nodes e f)) (hcon : Anchored nodes D) (sqrt : K → K)
    (old0 new0 : LocDofs dim (2 * nB) K) (W : Wrapper K)
    (hW : W = wrapper m G (localOperator m gesv tau E 0) (localResidual m gesv tau E 0) (fun e u => errors m gesv tau u (E e) 0) sqrt old0 new0) :
    SolvesSystem W (G.n_hyNodes * (2 * nB)) (VanishesAt D) (G.n_hyEdges * (2 * dim * (2 * nB)) ^ 2 < U32) ∧
    ∀ X : Fin (G.n_hyNodes * (2 * nB)) → K, ∃ (q : Fin G.n_hyEdges → Fin dim → Fin nS → K) (u : Fin G.n_hyEdges → Fin nS → K) (p : Fin G.n_hyEdges → Fin dim → Fin nS → K)
      (w : Fin G.n_hyEdges → Fin nS → K), (∀ e : Fin G.n_hyEdges, IsMixedSolution (form (E e) nB) (coupling (E e) 0) 0 tau 1
        (moments (form (E e) nB) (upper (faceValues nodes X e)) + dirichletMoments (E e) 0) (moments (form (E e) nB) (lower (faceValues nodes X e)) + laplacianMoments (E e) 0) 0 (source (E e) 0)
        (q e) (u e) (p e) (w e)) ∧
      W.errors (List.ofFn X) = .ok [sqrt (∑ e : Fin G.n_hyEdges, (E e).vol_diffsquare 0 (u e))] := by
  subst hW
  have hs := fun e => (C59_solvable (nB := nB) m gesv hg tau (E e) 0 (hE e) ht 0 0).1
  have hoff : ∀ (e : Fin G.n_hyEdges) (y : LocDofs dim (2 * nB) K), VanishesOnDirichlet (E e) y → ∀ f, D (nodes e f) → y f = 0 := by
    intro e y hy f hf
    funext j
    obtain ⟨k, rfl | rfl⟩ := halves_cases j
    · exact (hy f).1 ((hD e f).mpr hf) k
    · exact (hy f).2 ((hD' e f).mpr hf) k
  obtain ⟨R, hR1, hR2⟩ := C61_unique m gesv hg tau ht E 0 hE G nodes hwf old0 new0 hR D hD hD' hcon
  refine ⟨solves_system_of m G nodes hwf D _ _ _ sqrt old0 new0 (fun e u => (C59_solvable m gesv hg tau (E e) 0 (hE e) ht u _).2.1) (fun e => (C59_solvable m gesv hg tau (E e) 0 (hE e) ht _ _).2.2)
    (fun e u v y z h1 h2 a b => C59_linear m gesv hg tau (E e) 0 h1 h2 a b _)
    (fun e u y h f hf => hoff e y (C59_dirichlet_zero m gesv hg tau (E e) 0 u _ y h) f hf) (fun e u => ?_) one_pos R hR1 hR2, fun X => ?_⟩
  · obtain ⟨_, _, _, _, _, h⟩ := C59_errors m gesv hg tau (E e) 0 (hs e) u (hpos e)
    exact ⟨_, h⟩
  · choose q u p w h1 h2 using fun e : Fin G.n_hyEdges => C59_errors m gesv hg tau (E e) 0 (hs e) (faceValues nodes X e) (hpos e)
    exact ⟨q, u, p, w, h1, errors_one m G nodes hwf _ _ _ sqrt old0 new0 X _ h2⟩

end HyperHDG.Bilaplacian

/-! ## The hypotheses can be met -/

namespace HyperHDG.EllipticPython

open ParabolicProgram (LinearSolver Complete Total Solution perfect perfect_laws)

/-- The solver which looks for a solution is exact and uses the product for vectors of the right length only. -/
theorem perfect_accurate {K : Type} [Field K] [LinearOrder K] : Accurate 0 (perfect (K := K)) ∧ Local (perfect (K := K)) := by
  refine ⟨fun A b x h => ?_, fun A A' b h => ?_⟩
  · obtain ⟨h1, h2, h3⟩ := perfect_laws.1 A b x h
    refine ⟨h2, ⟨b, h1, rfl, ?_⟩, h3⟩
    have : List.zipWith (fun r s => r - s) b b = b.map fun _ => 0 := by
      rw [List.zipWith_self]
      exact List.map_congr_left fun a _ => sub_self a
    rw [this, normSq]
    simp
  · have hS : Solution A b = Solution A' b := by
      funext x
      refine propext ⟨fun ⟨h1, h2, h3⟩ => ⟨(h x h2).symm.trans h1, h2, fun i hi hA => h3 i hi fun y z hy hz => hA y z hy ((h y hy).symm.trans hz)⟩,
        fun ⟨h1, h2, h3⟩ => ⟨(h x h2).trans h1, h2, fun i hi hA => h3 i hi fun y z hy hz => hA y z hy ((h y hy).trans hz)⟩⟩
    unfold perfect
    rw [hS]

/-- A solver which stops at once, with the zero vector, has tolerance 1. -/
theorem zero_accurate : Accurate (1 : ℚ) fun A b => do
    let y ← A (List.replicate b.length 0)
    return (List.replicate b.length 0, if y = List.replicate b.length 0 then 0 else 1) := by
  intro A b x h
  obtain ⟨y, hy, h⟩ := Res.bind_eq_ok.mp h
  have h2 := Res.ok.inj h
  have hx : List.replicate b.length (0 : ℚ) = x := congrArg Prod.fst h2
  have hi : y = List.replicate b.length 0 := by
    by_contra hne
    have := congrArg Prod.snd h2
    simp only [if_neg hne] at this
    exact absurd this (by decide)
  subst hx
  refine ⟨by simp, ⟨y, hy, by simp [hi], ?_⟩, fun i hi' _ => ?_⟩
  · have : List.replicate b.length (0 : ℚ) = b.map fun _ => 0 := by simp
    rw [hi, this, List.zipWith_map_right, List.zipWith_self]
    simp
  · have := (List.getElem?_eq_some_iff.mp hi').1
    rw [List.getElem?_replicate, if_pos this]

namespace Example

open Diffusion Diffusion.Example DiffusionUniform.Example DiffusionParab.Example EllipticProgram.Example

/-- Two parallelograms with a Dirichlet node, a source and Dirichlet data. -/
noncomputable def W := Diffusion.python .debug (cramerSolve _ _ ℚ) 1 (fun e => (Edges 0 e).toEdge) G2 id (fun _ _ => 7) (fun _ _ => 8)

theorem W_correct : Correct W (G2.n_hyNodes * 1) (HyGraph.VanishesAt (· = ⟨0, by decide⟩)) (G2.n_hyEdges * (2 * 2 * 1) ^ 2 < U32) :=
  (C95_diffusion .debug (cramerSolve _ _ ℚ) (C44_example _ _ ℚ) 1 one_pos (fun e => (Edges 0 e).toEdge) (fun _ => E1_laws _ _ _) (fun _ => E1_rigid _ _) G2 G2nodes G2_wf
  (· = ⟨0, by decide⟩) (Edges_dirichlet 0) G2_anchored id (fun _ _ => 7) (fun _ _ => 8)).1

/-- With the exact solver the program returns the solution. -/
example (setup : Setup) : ∃ x error, program W setup [perfect] = .ok (x, error) ∧ W.residual_flux x = .ok (List.replicate (G2.n_hyNodes * 1) 0) := by
  have hf : setup = .matrix → G2.n_hyEdges * (2 * 2 * 1) ^ 2 < U32 := fun _ => by decide
  obtain ⟨x, error, h⟩ := W_correct.returns setup [perfect] 0 hf (by simp [perfect_accurate]) (by simp [perfect_laws.2.2]) (by simp [perfect_accurate]) ⟨perfect, by simp, perfect_laws.2.1⟩
  obtain ⟨y, h1, h2⟩ := W_correct.exact
  refine ⟨x, error, h, ?_⟩
  rw [h2 setup [perfect] x error hf (by simp [perfect_accurate]) h]
  exact ((h1 y).mpr rfl).2

open Timoshenko.Example in
example := Timoshenko.C95_beams .debug (cramerSolve _ _ ℚ) (C44_example _ _ ℚ) 1 one_pos (beams [0]) (beams_complete [0]) (beams_coefficients [0]) (beams_laws [0]) (beams_rigid [0])
  (fun e => mul_eq_one_comm.mp (beams_frame [0] e)) G Gnodes G_wf (fun v => v.1 = 0) (fun e f => by
    rw [beams_descriptor, beams_dirichlet, List.mem_singleton]
    rfl) G_anchored id (fun _ _ => 7) (fun _ _ => 8) _ rfl

open Bilaplacian.Example in
example := Bilaplacian.C95_plates (nB := 1) .debug (cramerSolve _ _ ℚ) (C44_example _ _ ℚ) 1 one_pos edges (fun _ => E2_laws _) (fun _ c => mul_nonneg (by norm_num) (sq_nonneg _)) (fun _ => E2_rigid _)
  G3 G2nodes G3_wf (· = ⟨0, by decide⟩) (Edges_dirichlet 3) (Edges_dirichlet 3) G2_anchored id (fun _ _ => 7) (fun _ _ => 8) _ rfl

example := DAR.C95_dar_dominated (nB := 1) .debug _ (C44_example _ _ ℚ) 1 (fun _ => DAR.Example.E1 (fun _ => 1) 1 []) (fun _ => DAR.Example.E1_laws _ _ _ _) ⟨1, 2, fun _ f => f⟩ (fun _ f => ⟨f.1, f.2⟩)
  ⟨fun _ _ => rfl, by decide⟩ (fun _ => False) (fun e f => by simp [DAR.Example.E1]) id 0 0 one_pos (fun _ => DAR.Example.E1_dominated []) (fun v _ => ⟨⟨0, by decide⟩, ⟨v.1, v.2⟩, rfl⟩)

end Example

end HyperHDG.EllipticPython

namespace HyperHDG.DiffusionPostprocess.Example

open Finset Spec Matrix Diffusion

/-- The unit interval, with the value prescribed at the left end. -/
noncomputable def E1' : Edge 1 1 2 ℚ := { E1 with dirichlet_nodes := [0] }

theorem E1_rigid : Rigid (form E1.toEdge 1 0) := by
  intro u f _ h
  have h0 := congrFun h 0
  have h1 : (form E1.toEdge 1 0).psi f 0 0 = 1 := by
    have h2 : SameFace 1 1 0 0 0 := fun k hk => absurd hk (by omega)
    have hf : f = 0 ∨ f = 1 := by
      rcases (by omega : f.1 = 0 ∨ f.1 = 1) with h | h
      · exact .inl (Fin.ext h)
      · exact .inr (Fin.ext h)
    rcases hf with rfl | rfl <;> simp [form, E1, I1, tensorIntegrator, h2, DiffusionUniform.Example.B0]
  funext i
  have : i = 0 := Subsingleton.elim _ _
  subst this
  simpa [mulVec, dotProduct, h1] using h0

theorem anchored : Anchored (fun (_ : Fin 1) (f : Fin (2 * 1)) => (⟨f.1, f.2⟩ : Fin 2)) (fun v => v.1 = 0) := fun v => ⟨⟨0, by decide⟩, rfl, .single ⟨0, 0, ⟨v.1, v.2⟩, rfl, rfl⟩⟩

example := C95_postprocess (nB := 1) .debug (cramerSolve _ _ ℚ) (C44_example _ _ ℚ) (cramerSolve _ _ ℚ) (C44_example _ _ ℚ) 1 one_pos
  (fun _ => E1') (by norm_num) (by norm_num)
  (fun _ => ⟨(E1_first 0).stiff_row, (E1_first 0).stiff_col, (E1_first 0).grad_row, (E1_first 0).ortho_pp, (E1_first 0).ortho, (E1_first 0).same⟩)
  (fun _ => C78_postprocessable E1 0 (by norm_num) (E1_first 0) (by simp [E1]) (E1_pos 0)) (fun _ => E1_laws 0) (fun _ => E1_rigid)
  ⟨1, 2, fun _ f => f⟩ (fun _ f => ⟨f.1, f.2⟩) ⟨fun _ _ => rfl, by decide⟩ (fun v => v.1 = 0) (fun e f => by simp [E1', E1]) anchored id 0 0 _ rfl

end HyperHDG.DiffusionPostprocess.Example

namespace HyperHDG.DiffusionIP.Example

open Finset Matrix
open Spec hiding Form IsSolution faceFlux Solvable moments IsTrace Rigid traceOf
open Spec.IP HyGraph

theorem anchored : Anchored (fun (_ : Fin 1) (f : Fin (2 * 2)) => (⟨f.1, f.2⟩ : Fin 4)) (fun v => v.1 = 0) := fun v => ⟨⟨0, by decide⟩, rfl, .single ⟨0, 0, ⟨v.1, v.2⟩, rfl, rfl⟩⟩

theorem E2_laws : Laws (form E2 2 0) (cubeTrace (tensorIntegrator 2 2 B2) 2 4 2) ∧ Rigid (form E2 2 0) := by
  rw [E2_cube]
  have h1 := cube_laws (tensorIntegrator 2 2 B2) (tensor_lawful (d := 1) B2 B2_lawful) one_pos
  rw [one_mul] at h1
  exact ⟨h1, cube_rigid _ (tensor_rigid (d := 1) B2 B2_lawful) one_pos⟩

/-- The unit square with one Dirichlet face and the interior penalty method. -/
example (tau : ℝ) (ht : 0 < tau) (hC : cubeTrace (tensorIntegrator 2 2 B2) 2 4 2 < 4 * tau) :=
  C95_interior_penalty (nB := 2) .debug (cramerSolve _ _ ℝ) (C44_example _ _ ℝ) tau ht (fun _ => { E2 with node_descriptor := fun f => f, dirichlet_nodes := [0] }) _
    (fun _ => E2_laws.1) (fun _ => hC) (fun _ => E2_laws.2) ⟨1, 4, fun _ f => f⟩ (fun _ f => ⟨f.1, f.2⟩) ⟨fun _ _ => rfl, by decide⟩ (fun v => v.1 = 0) (fun e f => by simp) anchored id 0 0 _ rfl

end HyperHDG.DiffusionIP.Example
