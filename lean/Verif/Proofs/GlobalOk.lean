import Verif.Proofs.GlobalLoop

/-!
# What a returned result says about the local calls
-/

namespace HyperHDG

theorem forUp_ok {σ : Type} : ∀ (n : Nat) (f : Nat → σ → Res σ) (s t : σ), forUp n f s = .ok t → ∀ c, c < n → ∃ s' t', f c s' = .ok t'
  | 0, _, _, _, _, _, hc => absurd hc (Nat.not_lt_zero _)
  | n + 1, f, s, t, h, c, hc => by
    rw [forUp_succ] at h
    obtain ⟨s', h1, h2⟩ := Res.bind_eq_ok.mp h
    rcases Nat.lt_succ_iff_lt_or_eq.mp hc with hc | rfl
    · exact forUp_ok n f s s' h1 c hc
    · exact ⟨s', t, h2⟩

namespace HyGraph

open Spec

variable {K : Type} {dim n : Nat}

/-- If the global loop returns, then so did all the local functions. -/
theorem mat_vec_ok [AddCommMonoid K] (m : Mode) (G : HyGraph dim n)
    (nodes : Fin G.n_hyEdges → Fin (2 * dim) → Fin G.n_hyNodes) (hwf : G.WF nodes)
    (loc : LocalFun dim n K) (x : Fin (G.n_hyNodes * n) → K) (old0 new0 : LocDofs dim n K) {y : List K}
    (h : G.mat_vec_multiply m loc old0 new0 (List.ofFn x) = .ok y) :
    ∃ z : Fin G.n_hyEdges → LocDofs dim n K, (∀ e : Fin G.n_hyEdges, loc e (faceValues nodes x e) (fun _ _ => 0) = .ok (z e)) ∧
      y = List.ofFn (assemble nodes z) := by
  have hz : ∀ e : Fin G.n_hyEdges, ∃ z, loc e (faceValues nodes x e) (fun _ _ => 0) = .ok z := by
    intro e
    unfold mat_vec_multiply for_each at h
    obtain ⟨s, h1, _⟩ := Res.bind_eq_ok.mp h
    obtain ⟨s', t', h2⟩ := forUp_ok _ _ _ _ h1 e e.2
    simp only [matVecStep] at h2
    rw [gather_eq m G hwf.fits x (G.hyNodes e) (nodes e) (fun i => hwf.hyNodes_eq e i) (s'.old, s'.new), Res.ok_bind] at h2
    obtain ⟨z, h3, _⟩ := Res.bind_eq_ok.mp h2
    exact ⟨z, h3⟩
  choose z hz using hz
  refine ⟨z, hz, ?_⟩
  rw [mat_vec_eq m G nodes hwf loc x z hz old0 new0] at h
  injection h with h
  exact h.symm

end HyGraph
end HyperHDG
