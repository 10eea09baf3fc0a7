import Verif.Proofs.ImportHistory

/-!
# A small installation
-/

namespace HyperHDG.Import.Example

open Spec.Import

/-- A digit of a hexadecimal number. -/
def hexDigit (n : Nat) : Char := t!"0123456789abcdef".getD (n % 16) '0'

/-- Six digits of a hexadecimal number. -/
def hexBlock (n : Nat) : Text := [hexDigit (n / 1048576), hexDigit (n / 65536), hexDigit (n / 4096), hexDigit (n / 256), hexDigit (n / 16), hexDigit n]

/-- A hash function without collisions. -/
def hexHash (t : Text) : Text := t.flatMap fun c => hexBlock c.toNat

theorem hexDigit_inj {m n : Nat} (h : hexDigit m = hexDigit n) : m % 16 = n % 16 := by
  unfold hexDigit at h
  have hm : m % 16 < 16 := Nat.mod_lt _ (by omega)
  have hn : n % 16 < 16 := Nat.mod_lt _ (by omega)
  generalize m % 16 = a at *
  generalize n % 16 = b at *
  have : ∀ a < 16, ∀ b < 16, t!"0123456789abcdef".getD a '0' = t!"0123456789abcdef".getD b '0' → a = b := by decide
  exact this a hm b hn h

theorem hexBlock_inj {m n : Nat} (hm : m < 16777216) (hn : n < 16777216) (h : hexBlock m = hexBlock n) : m = n := by
  unfold hexBlock at h
  simp only [List.cons.injEq, and_true] at h
  obtain ⟨h1, h2, h3, h4, h5, h6⟩ := h
  have h1 := hexDigit_inj h1
  have h2 := hexDigit_inj h2
  have h3 := hexDigit_inj h3
  have h4 := hexDigit_inj h4
  have h5 := hexDigit_inj h5
  have h6 := hexDigit_inj h6
  omega

theorem toNat_lt (c : Char) : c.toNat < 16777216 := by
  have h := c.valid
  have : c.toNat < 0x110000 := by
    rcases h with h | h
    · exact lt_trans h (by decide)
    · exact h.2
  omega

theorem hexHash_good : GoodHash hexHash := by
  refine ⟨fun s => ?_, fun s c hc => ?_⟩
  · induction s with
    | nil =>
      intro t h
      cases t with
      | nil => rfl
      | cons d t => exact absurd (congrArg List.length h) (by simp [hexHash, hexBlock])
    | cons c s ih =>
      intro t h
      cases t with
      | nil => exact absurd (congrArg List.length h) (by simp [hexHash, hexBlock])
      | cons d t =>
        unfold hexHash at h
        rw [List.flatMap_cons, List.flatMap_cons] at h
        obtain ⟨h1, h2⟩ := List.append_inj h rfl
        have hcd : c = d := Char.toNat_inj.mp (hexBlock_inj (toNat_lt c) (toNat_lt d) h1)
        rw [hcd, ih t h2]
  · obtain ⟨d, -, hd⟩ := List.mem_flatMap.mp hc
    have hex : ∀ n, (hexDigit n).isDigit = true ∨ (hexDigit n).isLower = true := by
      intro n
      unfold hexDigit
      have hn : n % 16 < 16 := Nat.mod_lt _ (by omega)
      generalize n % 16 = a at *
      have : ∀ a < 16, (t!"0123456789abcdef".getD a '0').isDigit = true ∨ (t!"0123456789abcdef".getD a '0').isLower = true := by decide
      exact this a hn
    simp only [hexBlock, List.mem_cons, List.not_mem_nil, or_false] at hd
    rcases hd with rfl | rfl | rfl | rfl | rfl | rfl <;> exact hex _

/-- One header in each folder, one replacement in the templates. -/
def P0 : Platform where
  hash := hexHash
  glob _ f := [t!"HyperHDG/" ++ f ++ t!"/a.hxx"]
  parse _ := some ⟨1, fun _ => some t!"double"⟩
  options _ := some ⟨[], [], [], [], [], [], [], [], []⟩

def file (s : Text) : File := ⟨s, 0⟩

/-- The header of the geometry includes another one, which includes it. -/
def files0 : Files :=
  [(t!"include/HyperHDG/geometry/a.hxx", file t!"#include <HyperHDG/b.hxx>\nclass G\n{"),
    (t!"include/HyperHDG/b.hxx", file t!"#include <HyperHDG/geometry/a.hxx>\n"),
    (t!"include/HyperHDG/c.hxx", file t!""),
    (t!"include/HyperHDG/topology/a.hxx", file t!"\nclass T\n{"),
    (t!"include/HyperHDG/node_descriptor/a.hxx", file t!"\nclass N\n{"),
    (t!"include/HyperHDG/global_loop/a.hxx", file t!"\nclass E\n{"),
    (t!"include/HyperHDG/local_solver/a.hxx", file t!"\nclass L\n{"),
    (t!"cython/e.pxd", file t!"CyReplace01"),
    (t!"cython/e.pyx", file t!"IncludeFiles"),
    (t!"cython/e.cfg", file t!""),
    (t!"import/HyperHDG/import_cxx/compile_prep.py", file t!"")]

def w0 : World := ⟨0, files0, [], [], 0, 0⟩

def c0 : Config := ⟨t!"E", t!"L", t!"T", t!"G", t!"N", [], [], [], false⟩

theorem w0_nothing : NothingBuilt w0 := ⟨rfl, rfl⟩

theorem some_of_map {α β : Type} {x : Option α} {f : α → β} {b : β} (h : x.map f = some b) : ∃ a, x = some a ∧ f a = b := Option.map_eq_some_iff.mp h

end HyperHDG.Import.Example
