import Verif.Props.Select
import Verif.Lib.TextLemmas

/-!
# C21: directory patterns
-/

namespace SB

/-- Specification: textual meaning of a path, `..` removes the last component, other names are appended. -/
inductive Spec.Resolves : Path → List Name → Path → Prop where
  | done (d) : Resolves d [] d
  | up {d r x} : Resolves d.dropLast r x → Resolves d (['.', '.'] :: r) x
  | down {d c r x} : c ≠ ['.', '.'] → Resolves (d ++ [c]) r x → Resolves d (c :: r) x

/-- Specification: the path a command line argument denotes when given in directory `cwd`. -/
def Spec.Denotes (cwd : Path) (pat : Str) (D : Path) : Prop :=
  Spec.Resolves (if pat.head? = some '/' then [] else cwd) (components pat) D

theorem resolves_foldl {d x : Path} {cs : List Name} (h : Spec.Resolves d cs x) :
    cs.foldl (fun acc c => if c = ['.', '.'] then acc.dropLast else acc ++ [c]) d = x := by
  induction h with
  | done d => rfl
  | up _ ih => simpa using ih
  | down hc _ ih => simpa [hc] using ih

theorem foldl_normal {d p : Path} (hp : NormalPath p) :
    p.foldl (fun acc c => if c = ['.', '.'] then acc.dropLast else acc ++ [c]) d = d ++ p := by
  induction p generalizing d with
  | nil => simp
  | cons c p ih =>
    have hc := (hp c (by simp)).2.2.2
    simp only [List.foldl_cons, hc, if_false]
    rw [ih (fun n hn => hp n (by simp [hn]))]; simp

theorem normalize_denotes {cwd D : Path} {pat : Str} (hcwd : NormalPath cwd) (h : Spec.Denotes cwd pat D) :
    normalizeComps (components (if pat.head? = some '/' then pat else display cwd ++ '/' :: pat)) = D := by
  unfold Spec.Denotes at h
  by_cases hp : pat.head? = some '/'
  · rw [if_pos hp] at h ⊢
    exact resolves_foldl h
  · rw [if_neg hp] at h ⊢
    rw [components_cwd_append hcwd]
    unfold normalizeComps
    rw [List.foldl_append, foldl_normal hcwd, List.nil_append]
    exact resolves_foldl h

theorem resolves_normal {d x : Path} {cs : List Name} (h : Spec.Resolves d cs x) (hd : NormalPath d)
    (hc : ∀ n ∈ cs, n ≠ [] ∧ '/' ∉ n ∧ n ≠ ['.']) : NormalPath x := by
  induction h with
  | done d => exact hd
  | up _ ih => exact ih hd.dropLast (fun n hn => hc n (by simp [hn]))
  | @down d c r x hcc _ ih =>
    refine ih (hd.append ?_) (fun n hn => hc n (by simp [hn]))
    intro n hn
    have hn' : n = c := by simpa using hn
    subst hn'
    have := hc n (by simp)
    exact ⟨this.1, this.2.1, this.2.2, hcc⟩

theorem denotes_normal {cwd D : Path} {pat : Str} (hcwd : NormalPath cwd) (h : Spec.Denotes cwd pat D) : NormalPath D := by
  unfold Spec.Denotes at h
  refine resolves_normal h ?_ (fun n hn => mem_components hn)
  split
  · intro n hn; simp at hn
  · exact hcwd

theorem display_getLast {D : Path} (hD : NormalPath D) (hne : D ≠ []) : (display D).getLast? ≠ some '/' :=
  (pathText_display hD hne).1

theorem compile_dir {dests : List Path} {cwd D : Path} {pat : Str} (hcwd : NormalPath cwd)
    (hneg : pat.head? ≠ some '!') (hD : Spec.Denotes cwd pat D) (hne : D ≠ []) :
    compilePattern dests cwd pat =
      if dests.any (fun d => (display D ++ ['/']).isPrefixOf (display d)) then display D ++ str "/**" else display D := by
  unfold compilePattern
  simp only [hneg, if_false]
  rw [normalize_denotes hcwd hD, if_neg (display_getLast (denotes_normal hcwd hD) hne)]

/-- **C21**: a pattern (absolute, relative or with `..`) that denotes directory `D`, with at least one change strictly below `D`, selects
exactly the changes strictly below `D`. The names in `D` must not contain glob characters. -/
theorem C21_directory_pattern {glob : Str → Str → Bool} (hg : GlobLaws glob) {cwd D : Path} {pat : Str} {cs : List Entry}
    (hcwd : NormalPath cwd) (hcs : ∀ e ∈ cs, NormalPath e.dest ∧ e.dest ≠ [])
    (hneg : pat.head? ≠ some '!') (hD : Spec.Denotes cwd pat D) (hlit : ∀ n ∈ D, Literal n)
    (hex : ∃ e ∈ cs, Below D e.dest) (e : Entry) :
    e ∈ matching glob cwd [pat] cs ↔ e ∈ cs ∧ Below D e.dest := by
  have hDn := denotes_normal hcwd hD
  simp only [matching, List.map_cons, List.map_nil, List.mem_filter, selects, List.cons_ne_nil, if_false, List.any_cons,
    List.any_nil, Bool.or_false]
  refine and_congr_right (fun he => ?_)
  have hdest := hcs e he
  by_cases hne : D = []
  · subst hne
    have hc : compilePattern (cs.map (·.dest)) cwd pat = str "" ++ str "/**" := by
      unfold compilePattern
      simp only [hneg, if_false]
      rw [normalize_denotes hcwd hD]
      have : (display []).getLast? = some '/' := rfl
      rw [if_pos this]; rfl
    rw [hc, hg.below _ _ (by intro c hc; simp at hc) (pathText_display hdest.1 hdest.2)]
    constructor
    · intro _; exact ⟨e.dest, hdest.2, rfl⟩
    · intro _
      cases hd : e.dest with
      | nil => exact absurd hd hdest.2
      | cons a p => simp [display, List.cons_prefix_cons]
  · rw [compile_dir hcwd hneg hD hne]
    have hany : (cs.map (·.dest)).any (fun d => (display D ++ ['/']).isPrefixOf (display d)) = true := by
      obtain ⟨e', he', hb⟩ := hex
      rw [List.any_eq_true]
      refine ⟨e'.dest, List.mem_map.2 ⟨e', he', rfl⟩, ?_⟩
      rw [List.isPrefixOf_iff_prefix]
      exact (isPrefix_display_below hDn (hcs e' he').1 hne).2 hb
    rw [if_pos hany, hg.below _ _ (literal_display hlit) (pathText_display hdest.1 hdest.2),
      isPrefix_display_below hDn hdest.1 hne]

/-- **C21**, single paths: a pattern denoting a path with no change below it selects exactly the changes at that path. -/
theorem C21_exact_pattern {glob : Str → Str → Bool} (hg : GlobLaws glob) {cwd D : Path} {pat : Str} {cs : List Entry}
    (hcwd : NormalPath cwd) (hcs : ∀ e ∈ cs, NormalPath e.dest ∧ e.dest ≠ [])
    (hneg : pat.head? ≠ some '!') (hD : Spec.Denotes cwd pat D) (hlit : ∀ n ∈ D, Literal n) (hne : D ≠ [])
    (hno : ∀ e ∈ cs, ¬ Below D e.dest) (e : Entry) :
    e ∈ matching glob cwd [pat] cs ↔ e ∈ cs ∧ e.dest = D := by
  have hDn := denotes_normal hcwd hD
  simp only [matching, List.map_cons, List.map_nil, List.mem_filter, selects, List.cons_ne_nil, if_false, List.any_cons,
    List.any_nil, Bool.or_false]
  refine and_congr_right (fun he => ?_)
  have hdest := hcs e he
  rw [compile_dir hcwd hneg hD hne]
  have hany : (cs.map (·.dest)).any (fun d => (display D ++ ['/']).isPrefixOf (display d)) = false := by
    rw [Bool.eq_false_iff]
    intro h
    rw [List.any_eq_true] at h
    obtain ⟨d, hd, hp⟩ := h
    obtain ⟨e', he', rfl⟩ := List.mem_map.1 hd
    rw [List.isPrefixOf_iff_prefix] at hp
    exact hno e' he' ((isPrefix_display_below hDn (hcs e' he').1 hne).1 hp)
  rw [hany]
  simp only [Bool.false_eq_true, if_false]
  rw [hg.lit _ _ (literal_display hlit)]
  constructor
  · intro h; exact display_inj hdest.1 hDn h
  · intro h; rw [h]

/-- Non-vacuity: from `/home/u/w`, the pattern `../src` denotes `/home/u/src` and selects what is below it, not `/home/u/src2`. -/
example :
    let e1 : Entry := { dest := [str "home", str "u", str "src", str "f"], op := .remove, source := none, staged := none }
    let e2 : Entry := { dest := [str "home", str "u", str "src2", str "f"], op := .remove, source := none, staged := none }
    Spec.Denotes [str "home", str "u", str "w"] (str "../src") [str "home", str "u", str "src"] ∧
    matching globRef [str "home", str "u", str "w"] [str "../src"] [e1, e2] = [e1] := by
  refine ⟨?_, by decide⟩
  have : components (str "../src") = [['.', '.'], str "src"] := by decide
  unfold Spec.Denotes
  rw [this, if_neg (by decide)]
  exact .up (.down (by decide) (.done _))

example : GlobLaws globRef := globRef_laws

end SB
