import Verif.Spec.ParabolicProgram
import Verif.Proofs.GlobalSolve

namespace HyperHDG.ParabolicProgram

variable {K D : Type}

theorem solve_spec [Zero K] {solvers : List (LinearSolver K)} (hs : ∀ s ∈ solvers, Exact s) {A : List K → Res (List K)} {b x : List K} (h : solve solvers A b = .ok x) : Solution A b x := by
  induction solvers with
  | nil => cases h
  | cons s rest ih =>
    unfold solve at h
    obtain ⟨r, h1, h2⟩ := Res.bind_eq_ok.mp h
    split at h2
    · rename_i h3
      cases h2
      exact hs s (by simp) A b r.1 (by rw [h1, ← h3])
    · exact ih (fun s hs' => hs s (by simp [hs'])) h2

variable [One K] [Zero K] [Mul K] [Neg K] [NatCast K]

theorem next_spec {W : Wrapper K D} {solvers : List (LinearSolver K)} (hs : ∀ s ∈ solvers, Exact s) {delta_time : K} {k : Nat} {d : D} {x : List K} (h : next W solvers delta_time k d = .ok x) :
    ∃ flux, W.residual_flux W.zero_vector ((k + 1 : Nat) * delta_time) d = .ok flux ∧ Solution (fun x => W.trace_to_flux x 0 d) (negated flux) x := by
  obtain ⟨flux, h1, h2⟩ := Res.bind_eq_ok.mp h
  exact ⟨flux, h1, solve_spec hs h2⟩

/-- The calls which initialise and set the data, with the vectors `X 1, ..., X n`. -/
def runOf {M : Nat} (W : Wrapper K D) (delta_time : K) (data : D) (X : Nat → Fin M → K) : Nat → Res (List K × D)
  | 0 => W.make_initial W.zero_vector 0 data
  | k + 1 => do
    let r ← runOf W delta_time data X k
    let d ← W.set_data (List.ofFn (X (k + 1))) ((k + 1 : Nat) * delta_time) r.2
    return (r.1, d)

theorem runOf_congr {M : Nat} (W : Wrapper K D) (delta_time : K) (data : D) {X X' : Nat → Fin M → K} (n : Nat) (h : ∀ k < n, X (k + 1) = X' (k + 1)) :
    runOf W delta_time data X n = runOf W delta_time data X' n := by
  induction n with
  | zero => rfl
  | succ n ih =>
    unfold runOf
    rw [ih fun k hk => h k (by omega), h n (by omega)]

/-- What is shown of one step: the system of a step of a run has exactly the vectors with `P` as solutions. -/
def StepIs {M : Nat} (W : Wrapper K D) (delta_time : K) (P : K → D → (Fin M → K) → Prop) (k : Nat) (d : D) : Prop :=
  ∃ flux, W.residual_flux W.zero_vector ((k + 1 : Nat) * delta_time) d = .ok flux ∧ (∀ y : List K, y.length = (negated flux).length → ∃ z, W.trace_to_flux y 0 d = .ok z) ∧
    ∀ x, Solution (fun x => W.trace_to_flux x 0 d) (negated flux) x ↔ ∃ y : Fin M → K, x = List.ofFn y ∧ P ((k + 1 : Nat) * delta_time) d y

/-- The vectors `X 1, ..., X n` have `P`. -/
def StepsOf {M : Nat} (W : Wrapper K D) (delta_time : K) (data : D) (P : K → D → (Fin M → K) → Prop) (X : Nat → Fin M → K) (n : Nat) : Prop :=
  ∀ k < n, ∃ r, runOf W delta_time data X k = .ok r ∧ P ((k + 1 : Nat) * delta_time) r.2 (X (k + 1))

/-- One more vector. -/
theorem StepsOf.snoc {M : Nat} {W : Wrapper K D} {delta_time : K} {data : D} {P : K → D → (Fin M → K) → Prop} {X : Nat → Fin M → K} {n : Nat} (h : StepsOf W delta_time data P X n)
    {r : List K × D} (hr : runOf W delta_time data X n = .ok r) {y : Fin M → K} (hy : P ((n + 1 : Nat) * delta_time) r.2 y) :
    ∃ X', StepsOf W delta_time data P X' (n + 1) ∧ X' (n + 1) = y ∧ runOf W delta_time data X' n = .ok r := by
  have hrun : ∀ k ≤ n, runOf W delta_time data (fun k => if k ≤ n then X k else y) k = runOf W delta_time data X k := fun k hk =>
    runOf_congr W delta_time data k fun i hi => if_pos (by omega)
  refine ⟨fun k => if k ≤ n then X k else y, fun k hk => ?_, if_neg (Nat.not_succ_le_self n), (hrun n (Nat.le_refl n)).trans hr⟩
  rcases Nat.lt_succ_iff_lt_or_eq.mp hk with hk' | rfl
  · obtain ⟨r', h1, h2⟩ := h k hk'
    refine ⟨r', (hrun k (Nat.le_of_lt hk')).trans h1, ?_⟩
    simp only [if_pos (show k + 1 ≤ n from hk')]
    exact h2
  · refine ⟨r, (hrun k (Nat.le_refl k)).trans hr, ?_⟩
    simp only [if_neg (Nat.not_succ_le_self k)]
    exact hy

section
variable {M : Nat} {W : Wrapper K D} {solvers : List (LinearSolver K)} {delta_time : K} {data : D} {P : K → D → (Fin M → K) → Prop}
  (hstep : ∀ (X : Nat → Fin M → K) k r, StepsOf W delta_time data P X k → runOf W delta_time data X k = .ok r → StepIs W delta_time P k r.2)
include hstep

theorem program_spec (hs : ∀ s ∈ solvers, Exact s) {n : Nat} {r : List K × D} (h : program W solvers n delta_time data = .ok r) :
    ∃ X, StepsOf W delta_time data P X n ∧ ∃ r0, runOf W delta_time data X n = .ok (r0, r.2) ∧ (n = 0 → r.1 = r0) ∧ (0 < n → r.1 = List.ofFn (X n)) := by
  obtain ⟨start, h0, h'⟩ := Res.bind_eq_ok.mp h
  clear h
  rename' h' => h
  induction n generalizing r with
  | zero =>
    cases h
    exact ⟨fun _ _ => 0, fun k hk => absurd hk (Nat.not_lt_zero k), _, h0, fun _ => rfl, fun h => absurd h (Nat.lt_irrefl 0)⟩
  | succ n ih =>
    unfold time_loop at h
    obtain ⟨s, h1, h⟩ := Res.bind_eq_ok.mp h
    obtain ⟨x, h2, h⟩ := Res.bind_eq_ok.mp h
    obtain ⟨d, h3, h⟩ := Res.bind_eq_ok.mp h
    cases h
    obtain ⟨X, hX, r0, hr0, _⟩ := ih h1
    obtain ⟨flux, k1, _, k2⟩ := hstep X n _ hX hr0
    obtain ⟨flux', k3, k4⟩ := next_spec hs h2
    rw [k1] at k3
    cases k3
    obtain ⟨y, rfl, hy⟩ := (k2 x).mp k4
    obtain ⟨X', j1, j2, j3⟩ := hX.snoc hr0 hy
    refine ⟨X', j1, r0, ?_, fun h => absurd h (Nat.succ_ne_zero n), fun _ => by rw [j2]⟩
    unfold runOf
    rw [j3, Res.ok_bind, j2, h3]
    rfl

theorem program_late_spec (hs : ∀ s ∈ solvers, Exact s) {n : Nat} {r : List K × D} (h : program_late W solvers (n + 1) delta_time data = .ok r) :
    ∃ X, StepsOf W delta_time data P X (n + 1) ∧ ∃ r0, runOf W delta_time data X n = .ok (r0, r.2) ∧ r.1 = List.ofFn (X (n + 1)) := by
  obtain ⟨start, h0, h'⟩ := Res.bind_eq_ok.mp h
  clear h
  rename' h' => h
  induction n generalizing r with
  | zero =>
    unfold time_loop_late at h
    obtain ⟨s, h1, h⟩ := Res.bind_eq_ok.mp h
    cases h1
    obtain ⟨d, h2, h⟩ := Res.bind_eq_ok.mp h
    cases h2
    obtain ⟨x, h3, h⟩ := Res.bind_eq_ok.mp h
    cases h
    have hX : StepsOf W delta_time data P (fun _ _ => 0) 0 := fun k hk => absurd hk (Nat.not_lt_zero k)
    obtain ⟨flux, k1, _, k2⟩ := hstep _ 0 _ hX h0
    obtain ⟨flux', k3, k4⟩ := next_spec hs h3
    rw [k1] at k3
    cases k3
    obtain ⟨y, rfl, hy⟩ := (k2 x).mp k4
    obtain ⟨X', j1, j2, j3⟩ := hX.snoc h0 hy
    exact ⟨X', j1, _, j3, by rw [j2]⟩
  | succ n ih =>
    unfold time_loop_late at h
    obtain ⟨s, h1, h⟩ := Res.bind_eq_ok.mp h
    obtain ⟨d, h2, h⟩ := Res.bind_eq_ok.mp h
    rw [if_pos (Nat.succ_pos n)] at h2
    obtain ⟨x, h3, h⟩ := Res.bind_eq_ok.mp h
    cases h
    obtain ⟨X, hX, r0, hr0, hx⟩ := ih h1
    have hr1 : runOf W delta_time data X (n + 1) = .ok (r0, d) := by
      unfold runOf
      rw [hr0, Res.ok_bind, ← hx, h2]
      rfl
    obtain ⟨flux, k1, _, k2⟩ := hstep X (n + 1) _ hX hr1
    obtain ⟨flux', k3, k4⟩ := next_spec hs h3
    rw [k1] at k3
    cases k3
    obtain ⟨y, rfl, hy⟩ := (k2 x).mp k4
    obtain ⟨X', j1, j2, j3⟩ := hX.snoc hr1 hy
    exact ⟨X', j1, _, j3, by rw [j2]⟩

end

omit [One K] [Mul K] [Neg K] [NatCast K] in
/-- If each system has a solution and one of the solvers always finds it, the loop ends. -/
theorem solve_ok {solvers : List (LinearSolver K)} {s : LinearSolver K} (hs : s ∈ solvers) (hc : Complete s) {A : List K → Res (List K)} {b x : List K}
    (htotal : ∀ s' ∈ solvers, ∃ r, s' A b = .ok r) (hx : Solution A b x) : ∃ y, solve solvers A b = .ok y := by
  induction solvers with
  | nil => cases hs
  | cons s' rest ih =>
    obtain ⟨r, hr⟩ := htotal s' (by simp)
    unfold solve
    rw [hr, Res.ok_bind]
    split
    · exact ⟨_, rfl⟩
    · rename_i h0
      rcases List.mem_cons.mp hs with rfl | hs'
      · obtain ⟨y, hy⟩ := hc A b x hx
        rw [hr] at hy
        exact absurd (congrArg Prod.snd (Res.ok.inj hy)) h0
      · exact ih hs' fun s'' h => htotal s'' (by simp [h])

section
variable {M : Nat} {W : Wrapper K D} {solvers : List (LinearSolver K)} {delta_time : K} {data : D} {P : K → D → (Fin M → K) → Prop}
  (hstep : ∀ (X : Nat → Fin M → K) k r, StepsOf W delta_time data P X k → runOf W delta_time data X k = .ok r → StepIs W delta_time P k r.2)
  (hrun : ∀ (X : Nat → Fin M → K) k, StepsOf W delta_time data P X k → ∃ r, runOf W delta_time data X k = .ok r)
  (hsol : ∀ (X : Nat → Fin M → K) k r, StepsOf W delta_time data P X k → runOf W delta_time data X k = .ok r → ∃ y, P ((k + 1 : Nat) * delta_time) r.2 y)
include hstep hrun hsol

omit hrun in
theorem next_ok {s : LinearSolver K} (hs : s ∈ solvers) (hc : Complete s) (htotal : ∀ s' ∈ solvers, Total s') {X : Nat → Fin M → K} {k : Nat} {r : List K × D}
    (hX : StepsOf W delta_time data P X k) (hr : runOf W delta_time data X k = .ok r) : ∃ x, next W solvers delta_time k r.2 = .ok x := by
  obtain ⟨flux, k1, k2, k3⟩ := hstep X k r hX hr
  obtain ⟨y, hy⟩ := hsol X k r hX hr
  obtain ⟨x, hx⟩ := solve_ok hs hc (fun s' h => htotal s' h _ _ k2) ((k3 _).mpr ⟨y, rfl, hy⟩)
  refine ⟨x, ?_⟩
  unfold next
  rw [k1, Res.ok_bind]
  exact hx

theorem program_ok (hex : ∀ s ∈ solvers, Exact s) {s : LinearSolver K} (hs : s ∈ solvers) (hc : Complete s) (htotal : ∀ s' ∈ solvers, Total s') (n : Nat) :
    ∃ r, program W solvers n delta_time data = .ok r := by
  induction n with
  | zero =>
    obtain ⟨r, hr⟩ := hrun (fun _ _ => 0) 0 (fun k hk => absurd hk (Nat.not_lt_zero k))
    refine ⟨r, ?_⟩
    unfold program
    rw [show W.make_initial W.zero_vector 0 data = .ok r from hr, Res.ok_bind]
    rfl
  | succ n ih =>
    obtain ⟨r, hr⟩ := ih
    obtain ⟨X, hX, r0, hr0, _⟩ := program_spec hstep hex hr
    obtain ⟨x, hx⟩ := next_ok hstep hsol hs hc htotal hX hr0
    obtain ⟨flux, k1, _, k2⟩ := hstep X n _ hX hr0
    obtain ⟨flux', k3, k4⟩ := next_spec hex hx
    rw [k1] at k3
    cases k3
    obtain ⟨y, rfl, hy⟩ := (k2 x).mp k4
    obtain ⟨X', j1, j2, j3⟩ := hX.snoc hr0 hy
    obtain ⟨r1, hr1⟩ := hrun X' (n + 1) j1
    unfold runOf at hr1
    rw [j3, Res.ok_bind, j2] at hr1
    obtain ⟨d, hd, _⟩ := Res.bind_eq_ok.mp hr1
    refine ⟨(List.ofFn y, d), ?_⟩
    unfold program at hr ⊢
    obtain ⟨start, h0, h⟩ := Res.bind_eq_ok.mp hr
    rw [h0, Res.ok_bind]
    unfold time_loop
    rw [h, Res.ok_bind, hx, Res.ok_bind, hd]
    rfl

theorem program_late_ok (hex : ∀ s ∈ solvers, Exact s) {s : LinearSolver K} (hs : s ∈ solvers) (hc : Complete s) (htotal : ∀ s' ∈ solvers, Total s') (n : Nat) :
    ∃ r, program_late W solvers (n + 1) delta_time data = .ok r := by
  induction n with
  | zero =>
    obtain ⟨r, hr⟩ := hrun (fun _ _ => 0) 0 (fun k hk => absurd hk (Nat.not_lt_zero k))
    obtain ⟨x, hx⟩ := next_ok hstep hsol hs hc htotal (fun k hk => absurd hk (Nat.not_lt_zero k)) hr
    refine ⟨(x, r.2), ?_⟩
    unfold program_late
    rw [show W.make_initial W.zero_vector 0 data = .ok r from hr, Res.ok_bind]
    unfold time_loop_late
    rw [show time_loop_late W solvers delta_time r 0 = .ok r from rfl, Res.ok_bind, if_neg (Nat.lt_irrefl 0), Res.ok_bind, hx]
    rfl
  | succ n ih =>
    obtain ⟨r, hr⟩ := ih
    obtain ⟨X, hX, r0, hr0, hx⟩ := program_late_spec hstep hex hr
    obtain ⟨r1, hr1⟩ := hrun X (n + 1) hX
    obtain ⟨x, hx'⟩ := next_ok hstep hsol hs hc htotal hX hr1
    unfold runOf at hr1
    rw [hr0, Res.ok_bind] at hr1
    obtain ⟨d, hd, hr1⟩ := Res.bind_eq_ok.mp hr1
    cases hr1
    refine ⟨(x, d), ?_⟩
    unfold program_late at hr ⊢
    obtain ⟨start, h0, h⟩ := Res.bind_eq_ok.mp hr
    rw [h0, Res.ok_bind]
    unfold time_loop_late
    rw [h, Res.ok_bind, if_pos (Nat.succ_pos n), hx, hd, Res.ok_bind, hx']
    rfl

end

/-- There are such solvers: one which looks for a solution. -/
noncomputable def perfect : LinearSolver K := fun A b => by
  classical
  exact if h : ∃ x, Solution A b x then .ok (h.choose, 0) else .ok (b, 1)

omit [One K] [Mul K] [Neg K] [NatCast K] in
theorem perfect_laws : Exact (perfect (K := K)) ∧ Complete (perfect (K := K)) ∧ Total (perfect (K := K)) := by
  refine ⟨fun A b x h => ?_, fun A b x h => ?_, fun A b _ => ?_⟩
  · unfold perfect at h
    split at h
    · rename_i h'
      have : h'.choose = x := congrArg Prod.fst (Res.ok.inj h)
      exact this ▸ h'.choose_spec
    · have := congrArg Prod.snd (Res.ok.inj h)
      exact absurd this Int.one_ne_zero
  · refine ⟨Exists.choose ⟨x, h⟩, ?_⟩
    unfold perfect
    rw [dif_pos ⟨x, h⟩]
  · unfold perfect
    split
    · exact ⟨_, rfl⟩
    · exact ⟨_, rfl⟩


end HyperHDG.ParabolicProgram

namespace HyperHDG.ParabolicProgram

open HyGraph Spec Finset

variable {K : Type} {dim n : Nat}

theorem negated_ofFn [CommRing K] {N : Nat} (v : Fin N → K) : negated (List.ofFn v) = List.ofFn (-v) := by
  unfold negated
  rw [List.map_ofFn]
  refine congrArg _ (funext fun i => ?_)
  simp

theorem exists_ofFn {N : Nat} {l : List K} (h : l.length = N) : ∃ v : Fin N → K, l = List.ofFn v :=
  ⟨fun i => l[i.1]'(h ▸ i.2), by
    apply List.ext_getElem
    · simp [h]
    · intro i h1 h2
      simp⟩

theorem getElem?_fin {N : Nat} (v : Fin N → K) (i : Fin N) : (List.ofFn v)[i.1]? = some (v i) := by
  rw [List.getElem?_ofFn, dif_pos i.2]

/-- The linear system of a step: its solutions are the zeros of the residual which vanish at `D`. -/
theorem solution_iff [CommRing K] [Nontrivial K] (m : Mode) (G : HyGraph dim n) (nodes : Fin G.n_hyEdges → Fin (2 * dim) → Fin G.n_hyNodes) (hwf : G.WF nodes) (old0 new0 : LocDofs dim n K)
    (loc res : LocalFun dim n K) (F : Fin G.n_hyEdges → LocDofs dim n K → LocDofs dim n K) (R0 : Fin G.n_hyEdges → LocDofs dim n K)
    (hloc : ∀ (e : Fin G.n_hyEdges) (u : LocDofs dim n K), loc e u (fun _ _ => 0) = .ok (F e u))
    (hres : ∀ (e : Fin G.n_hyEdges) (u : LocDofs dim n K), res e u (fun _ _ => 0) = .ok (F e u + R0 e)) (hF0 : ∀ e, F e 0 = 0) (D : Fin G.n_hyNodes → Prop)
    (hF : ∀ e u f, D (nodes e f) → F e u f = 0) (hR : ∀ e f, D (nodes e f) → R0 e f = 0)
    (hdef : ∀ x : Fin (G.n_hyNodes * n) → K, VanishesAt D x → ∑ e, ∑ i, ∑ j, faceValues nodes x e i j * F e (faceValues nodes x e) i j = 0 → x = 0) :
    ∃ flux, G.mat_vec_multiply m res old0 new0 (List.replicate (G.n_hyNodes * n) 0) = .ok flux ∧
      (∀ y : List K, y.length = (negated flux).length → ∃ z, G.mat_vec_multiply m loc old0 new0 y = .ok z) ∧ ∀ x, Solution (G.mat_vec_multiply m loc old0 new0) (negated flux) x ↔
      ∃ y : Fin (G.n_hyNodes * n) → K, x = List.ofFn y ∧ VanishesAt D y ∧ G.mat_vec_multiply m res old0 new0 (List.ofFn y) = .ok (List.replicate (G.n_hyNodes * n) 0) := by
  have hA : ∀ y, G.mat_vec_multiply m loc old0 new0 (List.ofFn y) = .ok (List.ofFn (assemble nodes fun e => F e (faceValues nodes y e))) := fun y =>
    mat_vec_eq m G nodes hwf loc y _ (fun e => hloc e _) old0 new0
  have hr : ∀ y, G.mat_vec_multiply m res old0 new0 (List.ofFn y) = .ok (List.ofFn ((assemble nodes fun e => F e (faceValues nodes y e)) + assemble nodes R0)) := by
    intro y
    rw [mat_vec_eq m G nodes hwf res y _ (fun e => hres e _) old0 new0, assemble_sum_add]
  have h0 : G.mat_vec_multiply m res old0 new0 (List.replicate (G.n_hyNodes * n) 0) = .ok (List.ofFn (assemble nodes R0)) := by
    have := hr 0
    rw [show List.ofFn (0 : Fin (G.n_hyNodes * n) → K) = List.replicate (G.n_hyNodes * n) 0 from List.ofFn_const _ _] at this
    rw [this]
    have h : (assemble nodes fun e => F e (faceValues nodes (0 : Fin (G.n_hyNodes * n) → K) e)) = 0 := by
      funext k
      simp only [assemble]
      refine Finset.sum_eq_zero fun e _ => Finset.sum_eq_zero fun i _ => Finset.sum_eq_zero fun j _ => ?_
      rw [show faceValues nodes (0 : Fin (G.n_hyNodes * n) → K) e = 0 from rfl, hF0 e]
      simp
    rw [h, zero_add]
  have hz : ∀ y, G.mat_vec_multiply m res old0 new0 (List.ofFn y) = .ok (List.replicate (G.n_hyNodes * n) 0) ↔
      (assemble nodes fun e => F e (faceValues nodes y e)) = -assemble nodes R0 := by
    intro y
    rw [hr, ← List.ofFn_const]
    constructor
    · intro h
      exact eq_neg_of_add_eq_zero_left (List.ofFn_injective (Res.ok.inj h))
    · intro h
      rw [h, neg_add_cancel]
      rfl
  have hvA : ∀ y, VanishesAt D (assemble nodes fun e => F e (faceValues nodes y e)) := fun y => assemble_vanishes nodes D _ fun e f h => hF e _ f h
  have hvR : VanishesAt D (assemble nodes R0) := assemble_vanishes nodes D R0 hR
  refine ⟨_, h0, fun y hy => ?_, fun x => ?_⟩
  · rw [negated_ofFn, List.length_ofFn] at hy
    obtain ⟨y, rfl⟩ := exists_ofFn hy
    exact ⟨_, hA y⟩
  rw [negated_ofFn]
  constructor
  · rintro ⟨h1, h2, h3⟩
    rw [List.length_ofFn] at h2
    obtain ⟨y, rfl⟩ := exists_ofFn h2
    refine ⟨y, rfl, fun v hv j => ?_, (hz y).mpr ?_⟩
    · have := h3 (dof v j).1 (by rw [getElem?_fin, Pi.neg_apply, hvR v hv j, neg_zero]) fun y' z hy' hz' => by
        rw [List.length_ofFn] at hy'
        obtain ⟨y', rfl⟩ := exists_ofFn hy'
        rw [hA] at hz'
        rw [← Res.ok.inj hz', getElem?_fin, hvA y' v hv j]
      rw [getElem?_fin] at this
      exact Option.some.inj this
    · rw [hA] at h1
      exact List.ofFn_injective (Res.ok.inj h1)
  · rintro ⟨y, rfl, hy, hzy⟩
    refine ⟨?_, by simp, fun i hi hi' => ?_⟩
    · show G.mat_vec_multiply m loc old0 new0 (List.ofFn y) = _
      rw [hA, (hz y).mp hzy]
    · have hlt : i < G.n_hyNodes * n := by
        by_contra h
        rw [List.getElem?_eq_none (by rw [List.length_ofFn]; omega)] at hi
        cases hi
      obtain ⟨i, rfl⟩ : ∃ k : Fin (G.n_hyNodes * n), k.1 = i := ⟨⟨i, hlt⟩, rfl⟩
      rw [getElem?_fin]
      obtain ⟨v, j, rfl⟩ := dof_surj i
      by_cases hv : D v
      · rw [hy v hv j]
      · exfalso
        have h1 : VanishesAt D (Pi.single (dof v j) (1 : K)) := by
          intro v' hv' j'
          rw [Pi.single_apply, if_neg]
          intro h
          exact hv ((dof_inj h).1 ▸ hv')
        have h2 := hi' (List.ofFn (Pi.single (dof v j) 1)) _ (by simp) (hA _)
        rw [getElem?_fin] at h2
        have h2 := Option.some.inj h2
        have h3 := pairing_assemble nodes (fun e => F e (faceValues nodes (Pi.single (dof v j) 1) e)) (Pi.single (dof v j) 1)
        have h4 := hdef _ h1 (by
          rw [← h3]
          refine Finset.sum_eq_zero fun k _ => ?_
          by_cases hk : k = dof v j
          · subst hk
            rw [h2, mul_zero]
          · rw [Pi.single_apply, if_neg hk, zero_mul])
        have h5 := congrFun h4 (dof v j)
        rw [Pi.single_apply, if_pos rfl] at h5
        exact one_ne_zero h5

/-- The same for systems whose matrix has a solution for each right-hand side vanishing at `D`. -/
theorem solution_iff' [CommRing K] [Nontrivial K] (m : Mode) (G : HyGraph dim n) (nodes : Fin G.n_hyEdges → Fin (2 * dim) → Fin G.n_hyNodes) (hwf : G.WF nodes) (old0 new0 : LocDofs dim n K)
    (loc : LocalFun dim n K) (F : Fin G.n_hyEdges → LocDofs dim n K → LocDofs dim n K)
    (hloc : ∀ (e : Fin G.n_hyEdges) (u : LocDofs dim n K), loc e u (fun _ _ => 0) = .ok (F e u)) (D : Fin G.n_hyNodes → Prop)
    (hF : ∀ e u f, D (nodes e f) → F e u f = 0) (R : Fin (G.n_hyNodes * n) → K) (hR : VanishesAt D R)
    (hsurj : ∀ b : Fin (G.n_hyNodes * n) → K, VanishesAt D b → ∃ z : Fin (G.n_hyNodes * n) → K, G.mat_vec_multiply m loc old0 new0 (List.ofFn z) = .ok (List.ofFn b)) :
    (∀ y : List K, y.length = (negated (List.ofFn R)).length → ∃ z, G.mat_vec_multiply m loc old0 new0 y = .ok z) ∧ ∀ x, Solution (G.mat_vec_multiply m loc old0 new0) (negated (List.ofFn R)) x ↔
      ∃ y : Fin (G.n_hyNodes * n) → K, x = List.ofFn y ∧ VanishesAt D y ∧ G.mat_vec_multiply m loc old0 new0 (List.ofFn y) = .ok (List.ofFn (-R)) := by
  have hA : ∀ y, G.mat_vec_multiply m loc old0 new0 (List.ofFn y) = .ok (List.ofFn (assemble nodes fun e => F e (faceValues nodes y e))) := fun y =>
    mat_vec_eq m G nodes hwf loc y _ (fun e => hloc e _) old0 new0
  have hvA : ∀ y, VanishesAt D (assemble nodes fun e => F e (faceValues nodes y e)) := fun y => assemble_vanishes nodes D _ fun e f h => hF e _ f h
  rw [negated_ofFn]
  refine ⟨fun y hy => ?_, fun x => ?_⟩
  · rw [List.length_ofFn] at hy
    obtain ⟨y, rfl⟩ := exists_ofFn hy
    exact ⟨_, hA y⟩
  constructor
  · rintro ⟨h1, h2, h3⟩
    rw [List.length_ofFn] at h2
    obtain ⟨y, rfl⟩ := exists_ofFn h2
    refine ⟨y, rfl, fun v hv j => ?_, h1⟩
    have := h3 (dof v j).1 (by rw [getElem?_fin, Pi.neg_apply, hR v hv j, neg_zero]) fun y' z hy' hz' => by
      rw [List.length_ofFn] at hy'
      obtain ⟨y', rfl⟩ := exists_ofFn hy'
      rw [hA] at hz'
      rw [← Res.ok.inj hz', getElem?_fin, hvA y' v hv j]
    rw [getElem?_fin] at this
    exact Option.some.inj this
  · rintro ⟨y, rfl, hy, hzy⟩
    refine ⟨hzy, by simp, fun i hi hi' => ?_⟩
    have hlt : i < G.n_hyNodes * n := by
      by_contra h
      rw [List.getElem?_eq_none (by rw [List.length_ofFn]; omega)] at hi
      cases hi
    obtain ⟨i, rfl⟩ : ∃ k : Fin (G.n_hyNodes * n), k.1 = i := ⟨⟨i, hlt⟩, rfl⟩
    rw [getElem?_fin]
    obtain ⟨v, j, rfl⟩ := dof_surj i
    by_cases hv : D v
    · rw [hy v hv j]
    · exfalso
      obtain ⟨z, hz⟩ := hsurj (Pi.single (dof v j) 1) fun v' hv' j' => by
        rw [Pi.single_apply, if_neg]
        intro h
        exact hv ((dof_inj h).1 ▸ hv')
      have h2 := hi' (List.ofFn z) _ (by simp) hz
      rw [getElem?_fin, Pi.single_apply, if_pos rfl] at h2
      exact one_ne_zero (Option.some.inj h2)

end HyperHDG.ParabolicProgram
