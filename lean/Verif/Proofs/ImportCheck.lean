import Verif.Spec.Import
import Mathlib.Data.List.Perm.Subperm
import Mathlib.Algebra.BigOperators.Group.List.Basic

/-!
# Which headers are checked before a class is compiled
-/

namespace HyperHDG.Import

open Spec.Import

theorem resolve_iff (fs : Files) (x : Text) (f : File) : resolve fs x = some f ↔ Found fs x f := by
  unfold resolve Found
  cases h : fs.look (t!"include/" ++ x) with
  | some g => simp
  | none => simp

theorem found_unique {fs : Files} {x : Text} {f g : File} (hf : Found fs x f) (hg : Found fs x g) : f = g := by
  rw [← resolve_iff] at hf hg
  rw [hf] at hg
  exact Option.some.inj hg

theorem look_mem {fs : Files} {p : Text} {f : File} (h : fs.look p = some f) : (p, f) ∈ fs := by
  unfold Files.look at h
  obtain ⟨e, he, rfl⟩ := Option.map_eq_some_iff.mp h
  have h1 := List.find?_some he
  have h2 := List.mem_of_find?_eq_some he
  simp only [decide_eq_true_eq] at h1
  subst h1
  exact h2

theorem resolve_mem {fs : Files} {x : Text} {f : File} (h : resolve fs x = some f) : ∃ p, (p, f) ∈ fs := by
  rw [resolve_iff] at h
  rcases h with h | ⟨_, h⟩
  · exact ⟨_, look_mem h⟩
  · exact ⟨_, look_mem h⟩

/-! ## The names in a file -/

theorem takeWhile_append_not {p : Char → Bool} {a : Text} {c : Char} {b : Text} (ha : ∀ x ∈ a, p x = true) (hc : p c = false) : (a ++ c :: b).takeWhile p = a := by
  induction a with
  | nil => simp [hc]
  | cons x a ih => simp [ha x (by simp), ih (fun y hy => ha y (by simp [hy]))]

theorem includes_spec (content : Text) : (∀ l, includes content = some l → Closed content ∧ ∀ y, y ∈ l ↔ HasInclude content y) ∧
    (includes content = none → ¬ Closed content) := by
  induction content with
  | nil =>
    refine ⟨fun l h => ?_, fun h => by simp [includes] at h⟩
    obtain rfl := Option.some.inj h
    refine ⟨fun a b h => ?_, fun y => ⟨fun h => by simp at h, fun ⟨a, b, h, _⟩ => ?_⟩⟩
    · have := congrArg List.length h
      simp at this
    · have := congrArg List.length h
      simp at this
  | cons c cs ih =>
    -- the text after the first character
    have hclosed : (t!"#include <HyperHDG/".isPrefixOf (c :: cs) = true → '>' ∈ (c :: cs).drop 10) → Closed cs → Closed (c :: cs) := by
      intro h1 h2 a b h
      cases a with
      | nil =>
        have h3 : c :: cs = t!"#include <HyperHDG/" ++ b := by simpa using h
        have h4 := h1 (by rw [h3]; simp)
        rw [h3] at h4
        simpa using h4
      | cons a0 a =>
        simp only [List.cons_append, List.cons.injEq] at h
        exact h2 a b h.2
    have hinc : ∀ y, HasInclude (c :: cs) y ↔ HasInclude cs y ∨ (t!"HyperHDG/" <+: y ∧ '>' ∉ y ∧ ∃ b, c :: cs = t!"#include <" ++ y ++ t!">" ++ b) := by
      intro y
      constructor
      · rintro ⟨a, b, h, h1, h2⟩
        cases a with
        | nil => exact .inr ⟨h1, h2, b, by simpa using h⟩
        | cons a0 a =>
          simp only [List.cons_append, List.cons.injEq] at h
          exact .inl ⟨a, b, h.2, h1, h2⟩
      · rintro (⟨a, b, h, h1, h2⟩ | ⟨h1, h2, b, h⟩)
        · exact ⟨c :: a, b, by rw [h]; simp, h1, h2⟩
        · exact ⟨[], b, by simpa using h, h1, h2⟩
    unfold includes
    by_cases hp : t!"#include <HyperHDG/".isPrefixOf (c :: cs) = true
    · rw [if_pos hp]
      obtain ⟨r, hr⟩ := List.isPrefixOf_iff_prefix.mp hp
      have hdrop : (c :: cs).drop 10 = t!"HyperHDG/" ++ r := by rw [← hr]; rfl
      simp only [hdrop]
      by_cases hg : (t!"HyperHDG/" ++ r).contains '>' = true
      · rw [if_pos hg]
        have hgm : '>' ∈ t!"HyperHDG/" ++ r := by simpa using hg
        have hgr : '>' ∈ r := by
          rcases List.mem_append.mp hgm with h | h
          · exact absurd h (by decide)
          · exact h
        -- split at the first `>`
        obtain ⟨n, b, hnb, hn⟩ : ∃ n b, r = n ++ '>' :: b ∧ '>' ∉ n := by
          obtain ⟨n, b, h1, h2⟩ := List.eq_append_cons_of_mem hgr
          exact ⟨n, b, h1, h2⟩
        have hname : (t!"HyperHDG/" ++ r).takeWhile (fun x => decide (x ≠ '>')) = t!"HyperHDG/" ++ n := by
          rw [hnb, ← List.append_assoc]
          refine takeWhile_append_not (fun x hx => ?_) (by decide)
          rcases List.mem_append.mp hx with h | h
          · have : ∀ x ∈ t!"HyperHDG/", decide (x ≠ '>') = true := by decide
            exact this x h
          · simp only [ne_eq, decide_eq_true_eq]
            rintro rfl
            exact hn h
        have hy : ∀ y, (t!"HyperHDG/" <+: y ∧ '>' ∉ y ∧ ∃ b, c :: cs = t!"#include <" ++ y ++ t!">" ++ b) ↔ y = t!"HyperHDG/" ++ n := by
          intro y
          constructor
          · rintro ⟨_, h2, b', h⟩
            have h3 : (c :: cs).drop 10 = y ++ ('>' :: b') := by rw [h]; simp
            rw [hdrop] at h3
            rw [← hname, h3]
            refine (takeWhile_append_not (fun x hx => ?_) (by decide)).symm
            simp only [ne_eq, decide_eq_true_eq]
            rintro rfl
            exact h2 hx
          · rintro rfl
            refine ⟨List.prefix_append _ _, ?_, b, ?_⟩
            · intro h
              rcases List.mem_append.mp h with h | h
              · exact absurd h (by decide)
              · exact hn h
            · rw [← hr, hnb]
              simp
        refine ⟨fun l hl => ?_, fun h => ?_⟩
        · cases h0 : includes cs with
          | none => rw [h0] at hl; cases hl
          | some l0 =>
            rw [h0] at hl
            obtain rfl := Option.some.inj hl
            obtain ⟨h1, h2⟩ := ih.1 l0 h0
            refine ⟨hclosed (fun _ => by rw [hdrop]; exact hgm) h1, fun y => ?_⟩
            rw [hinc, hy, ← h2 y]
            have : ((t!"HyperHDG/" ++ r).takeWhile fun x => !decide (x = '>')) = t!"HyperHDG/" ++ n := by
              rw [← hname]; congr 1; funext x; simp
            simp only [ne_eq, decide_not, this, List.mem_cons]
            exact or_comm
        · cases h0 : includes cs with
          | none =>
            intro hc
            refine ih.2 h0 (fun a b hab => hc (c :: a) b (by rw [hab]; simp))
          | some l0 => rw [h0] at h; cases h
      · rw [if_neg hg]
        refine ⟨fun l h => (nomatch h), fun _ hc => ?_⟩
        have h1 := hc [] r (by rw [← hr]; simp)
        exact hg (by simp [h1])
    · rw [if_neg hp]
      have hno : ∀ y, ¬ (t!"HyperHDG/" <+: y ∧ '>' ∉ y ∧ ∃ b, c :: cs = t!"#include <" ++ y ++ t!">" ++ b) := by
        rintro y ⟨⟨r, hr⟩, _, b, h⟩
        apply hp
        rw [h, ← hr, List.isPrefixOf_iff_prefix]
        exact ⟨r ++ (t!">" ++ b), by simp⟩
      refine ⟨fun l hl => ?_, fun h => ?_⟩
      · obtain ⟨h1, h2⟩ := ih.1 l hl
        refine ⟨hclosed (fun h => absurd h hp) h1, fun y => ?_⟩
        rw [hinc, h2 y]
        exact ⟨.inl, fun h => h.resolve_right (hno y)⟩
      · intro hc
        exact ih.2 h (fun a b hab => hc (c :: a) b (by rw [hab]; simp))

/-! ## The loop -/

theorem addFile_spec (l : List Text) (x : Text) : ∃ a, addFile l x = l ++ a ∧ (∀ y, y ∈ addFile l x ↔ y ∈ l ∨ y = x) := by
  unfold addFile
  by_cases h : x ∈ l
  · rw [if_pos h]
    exact ⟨[], by simp, fun y => ⟨.inl, fun hy => hy.elim id (fun e => e ▸ h)⟩⟩
  · rw [if_neg h]
    exact ⟨[x], rfl, fun y => by simp⟩

theorem foldl_addFile_mem (names l : List Text) (y : Text) : y ∈ names.foldl addFile l ↔ y ∈ l ∨ y ∈ names := by
  induction names generalizing l with
  | nil => simp
  | cons x names ih =>
    rw [List.foldl_cons, ih, (addFile_spec l x).choose_spec.2 y]
    simp only [List.mem_cons]
    tauto

theorem foldl_addFile_app (names l : List Text) : ∃ a, names.foldl addFile l = l ++ a := by
  induction names generalizing l with
  | nil => exact ⟨[], by simp⟩
  | cons x names ih =>
    obtain ⟨a, h1, _⟩ := addFile_spec l x
    obtain ⟨b, h2⟩ := ih (addFile l x)
    exact ⟨a ++ b, by rw [List.foldl_cons, h2, h1, List.append_assoc]⟩

/-- New entries are different from each other and come from `S`. -/
def Grown (roots S l : List Text) : Prop := ∃ app, l = roots ++ app ∧ app.Nodup ∧ app ⊆ S

theorem Grown.add {roots S l : List Text} (h : Grown roots S l) {x : Text} (hx : x ∈ S) : Grown roots S (addFile l x) := by
  obtain ⟨app, rfl, h1, h2⟩ := h
  unfold addFile
  by_cases hm : x ∈ roots ++ app
  · rw [if_pos hm]; exact ⟨app, rfl, h1, h2⟩
  · rw [if_neg hm]
    simp only [List.mem_append, not_or] at hm
    refine ⟨app ++ [x], by simp, ?_, ?_⟩
    · rw [List.nodup_append]
      exact ⟨h1, by simp, fun a ha b hb => by simp at hb; subst hb; rintro rfl; exact hm.2 ha⟩
    · intro y hy
      rcases List.mem_append.mp hy with h | h
      · exact h2 h
      · simp at h; subst h; exact hx

theorem Grown.foldl {roots S : List Text} (names : List Text) {l : List Text} (h : Grown roots S l) (hn : names ⊆ S) : Grown roots S (names.foldl addFile l) := by
  induction names generalizing l with
  | nil => exact h
  | cons x names ih =>
    exact ih (h.add (hn (by simp))) (fun y hy => hn (by simp [hy]))

theorem Grown.length {roots S l : List Text} (h : Grown roots S l) : l.length ≤ roots.length + S.length := by
  obtain ⟨app, rfl, h1, h2⟩ := h
  rw [List.length_append]
  exact Nat.add_le_add_left (h1.subperm h2).length_le _

/-- All names included in any of the files. -/
def allNames (fs : Files) : List Text := fs.flatMap fun e => (includes e.2.content).getD []

theorem allNames_length (fs : Files) (roots : List Text) : iterations fs roots = roots.length + (allNames fs).length + 1 := by
  simp [iterations, allNames, List.length_flatMap]

/-- The state of the loop before iteration `k`. -/
structure LoopInv (fs : Files) (roots : List Text) (t k : Nat) (l : List Text) : Prop where
  base : roots ⊆ l
  needed : ∀ x ∈ l, Needed fs roots x
  done : ∀ i < k, ∀ x, l[i]? = some x → ∃ f, Found fs x f ∧ f.mtime ≤ t ∧ Closed f.content ∧ ∀ y, HasInclude f.content y → y ∈ l
  grown : Grown roots (allNames fs) l
  le : k ≤ l.length

theorem checkLoop_spec (fs : Files) (roots : List Text) (t : Nat) : ∀ fuel k l, LoopInv fs roots t k l → fuel + k = iterations fs roots →
    match checkLoop fs t fuel k l with
    | .no => ∀ x, Needed fs roots x → ∃ f, Found fs x f ∧ f.mtime ≤ t ∧ Closed f.content
    | .yes => ∃ x f, Needed fs roots x ∧ Found fs x f ∧ t < f.mtime
    | .raises => ∃ x, Needed fs roots x ∧ ((∀ f, ¬ Found fs x f) ∨ ∃ f, Found fs x f ∧ ¬ Closed f.content)
    | .running => False := by
  intro fuel
  induction fuel with
  | zero =>
    intro k l h hf
    have h1 := h.grown.length
    have h2 := h.le
    rw [allNames_length] at hf
    show False
    omega
  | succ fuel ih =>
    intro k l h hf
    unfold checkLoop
    cases hx : l[k]? with
    | none =>
      have hk : l.length ≤ k := List.getElem?_eq_none_iff.mp hx
      have hall : ∀ x ∈ l, ∃ f, Found fs x f ∧ f.mtime ≤ t ∧ Closed f.content ∧ ∀ y, HasInclude f.content y → y ∈ l := by
        intro x hx
        obtain ⟨i, hi, hix⟩ := List.mem_iff_getElem.mp hx
        exact h.done i (by omega) x (by rw [List.getElem?_eq_getElem hi, hix])
      have hmem : ∀ x, Needed fs roots x → x ∈ l := by
        intro x hn
        induction hn with
        | root hr => exact h.base hr
        | step _ hf hi ih =>
          obtain ⟨g, hg, _, _, h4⟩ := hall _ ih
          rw [found_unique hf hg] at hi
          exact h4 _ hi
      intro x hn
      obtain ⟨f, h1, h2, h3, _⟩ := hall x (hmem x hn)
      exact ⟨f, h1, h2, h3⟩
    | some x =>
      have hxl : x ∈ l := List.mem_of_getElem? hx
      have hk : k < l.length := (List.getElem?_eq_some_iff.mp hx).1
      dsimp only
      cases hr : resolve fs x with
      | none =>
        refine ⟨x, h.needed x hxl, .inl fun f hf => ?_⟩
        rw [← resolve_iff, hr] at hf
        cases hf
      | some f =>
        have hfound := (resolve_iff fs x f).mp hr
        dsimp only
        by_cases ht : t < f.mtime
        · rw [if_pos ht]
          exact ⟨x, f, h.needed x hxl, hfound, ht⟩
        · rw [if_neg ht]
          cases hi : includes f.content with
          | none => exact ⟨x, h.needed x hxl, .inr ⟨f, hfound, (includes_spec f.content).2 hi⟩⟩
          | some names =>
            obtain ⟨hcl, hnames⟩ := (includes_spec f.content).1 names hi
            dsimp only
            refine ih (k + 1) (names.foldl addFile l) ⟨fun y hy => (foldl_addFile_mem names l y).mpr (.inl (h.base hy)), fun y hy => ?_, fun i hik y hy => ?_, ?_, ?_⟩ (by omega)
            · rcases (foldl_addFile_mem names l y).mp hy with hy | hy
              · exact h.needed y hy
              · exact .step (h.needed x hxl) hfound ((hnames y).mp hy)
            · obtain ⟨a, ha⟩ := foldl_addFile_app names l
              rw [ha, List.getElem?_append_left (by omega)] at hy
              by_cases hik' : i < k
              · obtain ⟨g, h1, h2, h3, h4⟩ := h.done i hik' y hy
                exact ⟨g, h1, h2, h3, fun z hz => (foldl_addFile_mem names l z).mpr (.inl (h4 z hz))⟩
              · obtain rfl : i = k := by omega
                rw [hx] at hy
                obtain rfl := Option.some.inj hy
                exact ⟨f, hfound, by omega, hcl, fun z hz => (foldl_addFile_mem names l z).mpr (.inr ((hnames z).mpr hz))⟩
            · refine h.grown.foldl names fun y hy => ?_
              obtain ⟨p, hp⟩ := resolve_mem hr
              exact List.mem_flatMap.mpr ⟨(p, f), hp, by simp [hi, hy]⟩
            · obtain ⟨a, ha⟩ := foldl_addFile_app names l
              rw [ha, List.length_append]
              omega

theorem check_spec (fs : Files) (roots : List Text) (t : Nat) :
    match need_compile_check_hy_files fs roots t with
    | .no => ∀ x, Needed fs roots x → ∃ f, Found fs x f ∧ f.mtime ≤ t ∧ Closed f.content
    | .yes => ∃ x f, Needed fs roots x ∧ Found fs x f ∧ t < f.mtime
    | .raises => ∃ x, Needed fs roots x ∧ ((∀ f, ¬ Found fs x f) ∨ ∃ f, Found fs x f ∧ ¬ Closed f.content)
    | .running => False :=
  checkLoop_spec fs roots t _ 0 roots ⟨fun _ h => h, fun _ h => .root h, fun i hi => absurd hi (by omega), ⟨[], by simp, by simp, by simp⟩, by omega⟩ rfl

end HyperHDG.Import
