import Verif.Proofs.DiffusionUniform
import Verif.Props.Hypercube

/-!
# The loops evaluating a local solution at the points of a tensor grid
-/

namespace HyperHDG

variable {K : Type} {dim nS D : Nat}

/-- A loop that writes each entry of an array. -/
theorem forFin_write {α : Type} (n : Nat) (f : Fin n → (Fin n → α) → Res (Fin n → α)) (g : Fin n → α) (hf : ∀ i c, f i c = .ok (arrSet c i (g i)))
    (c0 : Fin n → α) : forFin n f c0 = .ok g := by
  obtain ⟨c, hc1, hc2⟩ := forFin_inv n f c0 (fun k c => ∀ i : Fin n, i.1 < k → c i = g i) (fun i hi => absurd hi (Nat.not_lt_zero _)) (fun i c hc => by
    refine ⟨_, hf i c, fun j hj => ?_⟩
    unfold arrSet
    split
    next h => rw [h]
    next h => exact hc j (by have : j.1 ≠ i.1 := fun h' => h (Fin.ext h'); omega))
  rw [hc1]
  exact congrArg _ (funext fun i => hc2 i i.2)

/-- The loops of `bulk_values` over the components `d` and the points `pt`. -/
theorem bulk_loop_rd (m : Mode) (lin_comb : (Fin nS → K) → List K → K) (abscissas : List K) (rd : Fin D → Fin nS → Res K) (g : Fin D → Fin nS → K)
    (hget : ∀ (d : Fin D) (i : Fin nS), rd d i = .ok (g d i))
    (c0 : Fin nS → K) (vals0 : Fin D → Fin (Hypercube.pow dim abscissas.length) → K) :
    ∃ r, forFin D (fun d (s : (Fin nS → K) × (Fin D → Fin (Hypercube.pow dim abscissas.length) → K)) => do
      let coeffs ← forFin nS (fun i (c : Fin nS → K) => do
        let x ← rd d i
        return arrSet c i x) s.1
      let vals ← forFin (Hypercube.pow dim abscissas.length) (fun pt (v : Fin D → Fin (Hypercube.pow dim abscissas.length) → K) => do
        let p ← Hypercube.tensorial_pt m dim pt abscissas
        return arrSet v d (arrSet (v d) pt (lin_comb coeffs p))) s.2
      return (coeffs, vals)) (c0, vals0) = .ok r ∧
    ∀ pt : Fin (Hypercube.pow dim abscissas.length), ∃ p, Hypercube.tensorial_pt m dim pt abscissas = .ok p ∧
      ∀ d : Fin D, r.2 d pt = lin_comb (g d) p := by
  have hpt : ∀ pt : Fin (Hypercube.pow dim abscissas.length), ∃ p, Hypercube.tensorial_pt m dim pt abscissas = .ok p := by
    intro pt
    obtain ⟨p, hp, _⟩ := Hypercube.C05_in_grid m dim pt abscissas (by
      have h3 := pt.2
      have h4 := (Hypercube.C04_pow dim abscissas.length).1
      exact lt_of_lt_of_le (lt_of_lt_of_eq h3 h4) (Nat.mod_le _ _))
    exact ⟨p, hp⟩
  choose P hP using hpt
  have hcoef : ∀ (d : Fin D) (c0 : Fin nS → K), forFin nS (fun i (c : Fin nS → K) => do
      let x ← rd d i
      return arrSet c i x) c0 = .ok (g d) := fun d c0 => forFin_write _ _ (g d) (fun i c => by rw [hget]; rfl) c0
  have hvals : ∀ (d : Fin D) (v0 : Fin D → Fin (Hypercube.pow dim abscissas.length) → K),
      forFin (Hypercube.pow dim abscissas.length) (fun pt (v : Fin D → Fin (Hypercube.pow dim abscissas.length) → K) => do
        let p ← Hypercube.tensorial_pt m dim pt abscissas
        return arrSet v d (arrSet (v d) pt (lin_comb (g d) p))) v0 = .ok (arrSet v0 d (fun pt => lin_comb (g d) (P pt))) := by
    intro d v0
    obtain ⟨v, hv1, hv2, hv3⟩ := forFin_inv (Hypercube.pow dim abscissas.length)
      (fun pt (v : Fin D → Fin (Hypercube.pow dim abscissas.length) → K) => do
        let p ← Hypercube.tensorial_pt m dim pt abscissas
        return arrSet v d (arrSet (v d) pt (lin_comb (g d) p))) v0
      (fun k v => (∀ a, a ≠ d → v a = v0 a) ∧ ∀ pt : Fin (Hypercube.pow dim abscissas.length), pt.1 < k → v d pt = lin_comb (g d) (P pt))
      ⟨fun _ _ => rfl, fun pt h => absurd h (Nat.not_lt_zero _)⟩ (fun pt v hv => by
        refine ⟨_, by rw [hP]; rfl, fun a ha => ?_, fun pt' hpt' => ?_⟩
        · rw [arrSet, if_neg ha]; exact hv.1 a ha
        · rw [arrSet, if_pos rfl, arrSet]
          split
          next h => rw [h]
          next h => exact hv.2 pt' (by have : pt'.1 ≠ pt.1 := fun h' => h (Fin.ext h'); omega))
    rw [hv1]
    refine congrArg _ (funext fun a => ?_)
    rw [arrSet]
    split
    next h => rw [h]; exact funext fun pt => hv3 pt pt.2
    next h => exact hv2 a h
  obtain ⟨r, hr1, hr2⟩ := forFin_inv D (fun d (s : (Fin nS → K) × (Fin D → Fin (Hypercube.pow dim abscissas.length) → K)) => do
      let coeffs ← forFin nS (fun i (c : Fin nS → K) => do
        let x ← rd d i
        return arrSet c i x) s.1
      let vals ← forFin (Hypercube.pow dim abscissas.length) (fun pt (v : Fin D → Fin (Hypercube.pow dim abscissas.length) → K) => do
        let p ← Hypercube.tensorial_pt m dim pt abscissas
        return arrSet v d (arrSet (v d) pt (lin_comb coeffs p))) s.2
      return (coeffs, vals)) (c0, vals0)
    (fun k s => ∀ d : Fin D, d.1 < k → ∀ pt, s.2 d pt = lin_comb (g d) (P pt)) (fun d h => absurd h (Nat.not_lt_zero _)) (fun d s hs => by
      refine ⟨(g d, arrSet s.2 d (fun pt => lin_comb (g d) (P pt))), by rw [hcoef, Res.ok_bind, hvals]; rfl, fun d' hd' pt => ?_⟩
      show arrSet s.2 d _ d' pt = _
      rw [arrSet]
      split
      next h => rw [h]
      next h => exact hs d' (by have : d'.1 ≠ d.1 := fun h' => h (Fin.ext h'); omega) pt)
  exact ⟨r, hr1, fun pt => ⟨P pt, hP pt, fun d => hr2 d d.2 pt⟩⟩

theorem bulk_loop_get [Zero K] (m : Mode) (lin_comb : (Fin nS → K) → List K → K) (abscissas : List K) {N : Nat} (x : SmallVec N K) (g : Fin D → Fin nS → K)
    (hget : ∀ (d : Fin D) (i : Fin nS), SmallMat.get m x (d * nS + i) = .ok (g d i))
    (c0 : Fin nS → K) (vals0 : Fin D → Fin (Hypercube.pow dim abscissas.length) → K) :
    ∃ r, forFin D (fun d (s : (Fin nS → K) × (Fin D → Fin (Hypercube.pow dim abscissas.length) → K)) => do
      let coeffs ← forFin nS (fun i (c : Fin nS → K) => do
        let x ← SmallMat.get m x (d * nS + i)
        return arrSet c i x) s.1
      let vals ← forFin (Hypercube.pow dim abscissas.length) (fun pt (v : Fin D → Fin (Hypercube.pow dim abscissas.length) → K) => do
        let p ← Hypercube.tensorial_pt m dim pt abscissas
        return arrSet v d (arrSet (v d) pt (lin_comb coeffs p))) s.2
      return (coeffs, vals)) (c0, vals0) = .ok r ∧
    ∀ pt : Fin (Hypercube.pow dim abscissas.length), ∃ p, Hypercube.tensorial_pt m dim pt abscissas = .ok p ∧
      ∀ d : Fin D, r.2 d pt = lin_comb (g d) p :=
  bulk_loop_rd m lin_comb abscissas (fun d i => SmallMat.get m x (d * nS + i)) g hget c0 vals0

theorem bulk_loop [Zero K] (m : Mode) (lin_comb : (Fin nS → K) → List K → K) (abscissas : List K) (x : SmallVec (D * nS) K)
    (c0 : Fin nS → K) (vals0 : Fin D → Fin (Hypercube.pow dim abscissas.length) → K) :
    ∃ r, forFin D (fun d (s : (Fin nS → K) × (Fin D → Fin (Hypercube.pow dim abscissas.length) → K)) => do
      let coeffs ← forFin nS (fun i (c : Fin nS → K) => do
        let x ← SmallMat.get m x (d * nS + i)
        return arrSet c i x) s.1
      let vals ← forFin (Hypercube.pow dim abscissas.length) (fun pt (v : Fin D → Fin (Hypercube.pow dim abscissas.length) → K) => do
        let p ← Hypercube.tensorial_pt m dim pt abscissas
        return arrSet v d (arrSet (v d) pt (lin_comb coeffs p))) s.2
      return (coeffs, vals)) (c0, vals0) = .ok r ∧
    ∀ pt : Fin (Hypercube.pow dim abscissas.length), ∃ p, Hypercube.tensorial_pt m dim pt abscissas = .ok p ∧
      ∀ d : Fin D, r.2 d pt = lin_comb (fun i => toMat x (ix d i) 0) p := by
  let g : Fin D → Fin nS → K := fun d i => toMat x (ix d i) 0
  have hget : ∀ (d : Fin D) (i : Fin nS), SmallMat.get m x (d * nS + i) = .ok (g d i) := by
    intro d i
    have h3 := get_fin m x (pos (ix d i) 0)
    have h4 : (pos (ix d i) (0 : Fin 1)).1 = d * nS + i := by simp [pos, ix]
    rw [h4] at h3
    exact h3
  exact bulk_loop_get m lin_comb abscissas x g hget c0 vals0

end HyperHDG
