import Verif.Props.SelectDir
import Verif.Model.Glob

/-!
# C78: a pattern reaches no further than the directory it names

Law of the matcher used besides `GlobLaws`: what is written literally up to a slash must be there.
-/

namespace SB

/-- A pattern that starts with the literal text `p` and a slash matches only `p` and what is below it. -/
def Spec.GlobPrefix (glob : Str → Str → Bool) : Prop :=
  ∀ p r s, Literal p → PathText s → glob (p ++ '/' :: r) s = true → s = p ∨ (p ++ ['/']) <+: s

/-- A leading `!` negates the rest of the pattern. -/
def Spec.GlobNegates (glob : Str → Str → Bool) : Prop := ∀ p s, glob ('!' :: p) s = !glob p s

theorem globRef_prefix : Spec.GlobPrefix globRef := by
  intro p r s hp _ h
  rw [globRef_literal_head (literal_head hp ('/' :: r) (by simp)), split_append] at h
  obtain ⟨t, ht, -⟩ := (globComps_literal (fun w hw => literal_comp hp hw) _ _).1 h
  cases t with
  | nil =>
    left
    rw [List.append_nil] at ht
    exact split_inj ht
  | cons x t =>
    right
    have hj := congrArg joinSlash ht
    rw [join_split, join_append (splitSlash_ne_nil p) (by simp), join_split] at hj
    exact ⟨joinSlash (x :: t), by rw [hj]; simp⟩

theorem globRef_negates : Spec.GlobNegates globRef := fun p s => by rw [globRef]

theorem display_append {P R : Path} (hR : R ≠ []) : display (P ++ R) = P.flatMap (fun n => '/' :: n) ++ R.flatMap (fun n => '/' :: n) := by
  simp [display, hR]

theorem compile_root {dests : List Path} {cwd : Path} {pat : Str} (hcwd : NormalPath cwd) (hneg : pat.head? ≠ some '!') (hD : Spec.Denotes cwd pat []) :
    compilePattern dests cwd pat = str "/**" := by
  unfold compilePattern
  simp only [hneg, if_false]
  rw [normalize_denotes hcwd hD]
  rfl

/-- **C78**: what a pattern selects is at or below every directory that is written literally at the beginning of the path it denotes (`/a/b/*.c` selects nothing outside `/a/b`). -/
theorem C78_scope {glob : Str → Str → Bool} (hg : GlobLaws glob) (hpre : Spec.GlobPrefix glob) {cwd P R : Path} {pat : Str} {cs : List Entry}
    (hcwd : NormalPath cwd) (hneg : pat.head? ≠ some '!') (hD : Spec.Denotes cwd pat (P ++ R)) (hlit : ∀ n ∈ P, Literal n) (e : Entry)
    (hN : NormalPath e.dest) (hd : e.dest ≠ []) (h : e ∈ matching glob cwd [pat] cs) : P <+: e.dest := by
  by_cases hP : P = []
  · subst hP
    exact List.nil_prefix
  have hne : P ++ R ≠ [] := by simp [hP]
  have hNP : NormalPath (P ++ R) := denotes_normal hcwd hD
  have hNP' : NormalPath P := fun n hn => hNP n (by simp [hn])
  simp only [matching, List.map_cons, List.map_nil, List.mem_filter, selects, List.cons_ne_nil, if_false, List.any_cons, List.any_nil, Bool.or_false] at h
  obtain ⟨-, h⟩ := h
  rw [compile_dir hcwd hneg hD hne] at h
  have hl : Literal (display P) := literal_display hlit
  have text : ∀ x : Str, (∃ r, x = display P ++ '/' :: r) → glob x (display e.dest) = true → P <+: e.dest := by
    rintro x ⟨r, rfl⟩ hx
    rcases hpre (display P) r _ hl (pathText_display hN hd) hx with h | h
    · have : e.dest = P := by
        rw [← components_display hN, h, components_display hNP']
      rw [this]
    · obtain ⟨q, -, hq⟩ := (isPrefix_display_below hNP' hN hP).1 h
      exact ⟨q, hq.symm⟩
  cases R with
  | nil =>
    rw [List.append_nil] at h
    split at h
    · exact text _ ⟨str "**", rfl⟩ h
    · have := (hg.lit _ _ hl).1 h
      rw [show e.dest = P from by rw [← components_display hN, this, components_display hNP']]
  | cons x R =>
    have hd2 : display (P ++ x :: R) = display P ++ '/' :: (x ++ R.flatMap (fun n => '/' :: n)) := by
      rw [display_append (by simp)]
      simp [display, hP]
    split at h
    · exact text _ ⟨x ++ R.flatMap (fun n => '/' :: n) ++ str "/**", by rw [hd2]; simp⟩ h
    · exact text _ ⟨_, hd2⟩ h

/-- **C78**: patterns that are relative, go nowhere upwards and are not negated select nothing outside the current directory, if its name has no special characters. -/
theorem C78_relative_partial {glob : Str → Str → Bool} (hg : GlobLaws glob) (hpre : Spec.GlobPrefix glob) {cwd : Path} {pats : List Str} {cs : List Entry}
    (hcwd : NormalPath cwd) (hlit : ∀ n ∈ cwd, Literal n) (hne : pats ≠ [])
    (hpats : ∀ p ∈ pats, p.head? ≠ some '!' ∧ p.head? ≠ some '/' ∧ ['.', '.'] ∉ components p)
    (hcs : ∀ e ∈ cs, NormalPath e.dest ∧ e.dest ≠ []) : ∀ e ∈ matching glob cwd pats cs, cwd <+: e.dest := by
  intro e he
  have hec := (C22_sublist glob cwd pats cs).subset he
  obtain ⟨p, hp, h⟩ := (C22_union glob cwd pats hne cs e).1 he
  obtain ⟨h1, h2, h3⟩ := hpats p hp
  have hD : Spec.Denotes cwd p (cwd ++ components p) := by
    unfold Spec.Denotes
    rw [if_neg h2]
    have : ∀ (l : List Name) (d : Path), ['.', '.'] ∉ l → Spec.Resolves d l (d ++ l) := by
      intro l
      induction l with
      | nil => intro d _; simpa using Spec.Resolves.done d
      | cons c l ih =>
        intro d hn
        have hc : c ≠ ['.', '.'] := fun hc => hn (by simp [hc])
        have := ih (d ++ [c]) (fun h => hn (by simp [h]))
        rw [List.append_assoc] at this
        exact Spec.Resolves.down hc this
    exact this _ _ h3
  exact C78_scope hg hpre hcwd h1 hD hlit e (hcs e hec).1 (hcs e hec).2 h

/-- **C78**, negated patterns: `!p` selects every change of the sandbox other than `p` (if `p` names a file), wherever it is. -/
theorem C78_negated {glob : Str → Str → Bool} (hg : GlobLaws glob) (hn : Spec.GlobNegates glob) {cwd D : Path} {pat : Str} {cs : List Entry}
    (hcwd : NormalPath cwd) (hcs : ∀ e ∈ cs, NormalPath e.dest ∧ e.dest ≠ []) (hneg : pat.head? ≠ some '!') (hD : Spec.Denotes cwd pat D) (hlit : ∀ n ∈ D, Literal n) (hne : D ≠ [])
    (hno : ∀ e ∈ cs, ¬ Below D e.dest) (e : Entry) :
    e ∈ matching glob cwd ['!' :: pat] cs ↔ e ∈ cs ∧ e.dest ≠ D := by
  have hc : ∀ dests : List Path, compilePattern dests cwd ('!' :: pat) = '!' :: compilePattern dests cwd pat := by
    intro dests
    unfold compilePattern
    simp [hneg]
  have hpos := C21_exact_pattern hg hcwd hcs hneg hD hlit hne hno e
  have hm : ∀ (q : Str), e ∈ matching glob cwd [q] cs ↔ e ∈ cs ∧ glob (compilePattern (cs.map (·.dest)) cwd q) (display e.dest) = true := by
    intro q
    simp [matching, selects]
  rw [hm, hc, hn]
  rw [hm] at hpos
  constructor
  · rintro ⟨he, h⟩
    refine ⟨he, fun hd => ?_⟩
    rw [(hpos.2 ⟨he, hd⟩).2] at h
    cases h
  · rintro ⟨he, h⟩
    refine ⟨he, ?_⟩
    cases hgl : glob (compilePattern (cs.map (·.dest)) cwd pat) (display e.dest) with
    | false => rfl
    | true => exact absurd (hpos.1 ⟨he, hgl⟩).2 h

/-! ### Cases -/

/-- A change at a path, for the examples. -/
def exAt (p : Path) : Entry := { dest := p, op := .remove, source := none, staged := none }

/-- Changes in two projects, `/p/a*` and `/p/ab`, and of a system file. -/
def exScope : List Entry := [exAt [str "p", str "a*", str "x"], exAt [str "p", str "ab", str "x"], exAt [str "etc", str "passwd"]]

/-- **C78 refuted** for a current directory whose name has a special character: in `/p/a*`, the pattern `x` also selects `/p/ab/x`. -/
theorem C78_refuted_cwd : exAt [str "p", str "ab", str "x"] ∈ matching globRef [str "p", str "a*"] [str "x"] exScope := by decide +kernel

/-- **C78 refuted** for negated patterns: in `/p/ab`, `!x` selects the changes of the whole sandbox outside the directory. -/
theorem C78_refuted_negated : matching globRef [str "p", str "ab"] [str "!x"] exScope = [exAt [str "p", str "a*", str "x"], exAt [str "etc", str "passwd"]] := by decide +kernel

/-- Changes of the files `/p/a\b`, `/p/ab` and `/p/!x`, and of a system file. -/
def exSpecial : List Entry := [exAt [str "p", str "a\\b"], exAt [str "p", str "ab"], exAt [str "p", str "!x"], exAt [str "etc", str "passwd"]]

/-- **C21 refuted** for a file whose name has a backslash: in `/p`, the pattern `a\b` does not select the change of `/p/a\b`, it selects that of `/p/ab`, and so does the full path; `a\\b` selects the change of `/p/a\b`. -/
theorem C21_refuted_backslash : matching globRef [str "p"] [str "a\\b"] exSpecial = [exAt [str "p", str "ab"]] ∧ matching globRef [str "p"] [str "/p/a\\b"] exSpecial = [exAt [str "p", str "ab"]] ∧
    matching globRef [str "p"] [str "a\\\\b"] exSpecial = [exAt [str "p", str "a\\b"]] := by decide +kernel

/-- **C21 refuted** for a directory whose name has a star: the pattern `/p/a*` selects what is below `/p/a*` and below its sibling `/p/ab`, and `/p/a\*` selects nothing; only `/p/a\*/**` selects the changes below that directory. -/
theorem C21_refuted_star : matching globRef [str "p"] [str "/p/a*"] exScope = [exAt [str "p", str "a*", str "x"], exAt [str "p", str "ab", str "x"]] ∧
    matching globRef [str "p"] [str "/p/a\\*"] exScope = [] ∧ matching globRef [str "p"] [str "/p/a\\*/**"] exScope = [exAt [str "p", str "a*", str "x"]] := by decide +kernel

/-- **C21 refuted** for a file whose name begins with `!`: in `/p`, the pattern `!x` selects, with the change of `/p/!x`, those of all other files; `./!x` selects that change alone. -/
theorem C21_refuted_bang : matching globRef [str "p"] [str "!x"] exSpecial = exSpecial ∧ matching globRef [str "p"] [str "./!x"] exSpecial = [exAt [str "p", str "!x"]] := by decide +kernel

/-- The hypotheses of `C78_relative_partial` in `/p/ab` with the patterns `x` and `./*`. -/
example : (∀ n ∈ [str "p", str "ab"], Literal n) ∧ (∀ p ∈ [str "x", str "./*"], p.head? ≠ some '!' ∧ p.head? ≠ some '/' ∧ ['.', '.'] ∉ components p) ∧
    (∀ e ∈ exScope, NormalPath e.dest ∧ e.dest ≠ []) ∧ matching globRef [str "p", str "ab"] [str "x", str "./*"] exScope = [exAt [str "p", str "ab", str "x"]] := by decide +kernel

/-- Those of `C78_scope` with the pattern `../*/x`: `/p` is written literally. -/
example : Spec.Denotes [str "p", str "ab"] (str "../*/x") ([str "p"] ++ [str "*", str "x"]) ∧
    matching globRef [str "p", str "ab"] [str "../*/x"] exScope = [exAt [str "p", str "a*", str "x"], exAt [str "p", str "ab", str "x"]] := by
  refine ⟨?_, by decide +kernel⟩
  exact .up (.down (by decide) (.down (by decide) (.done _)))

/-- Those of `C78_negated`. -/
example : (∀ e ∈ exScope, ¬ Below [str "p", str "ab", str "x"] e.dest) ∧ Spec.Denotes [str "p", str "ab"] (str "x") [str "p", str "ab", str "x"] :=
  ⟨by
    intro e he
    rintro ⟨r, hr, h⟩
    simp only [exScope, List.mem_cons, List.not_mem_nil, or_false] at he
    rcases he with rfl | rfl | rfl <;> simp [exAt] at h <;> simp_all,
   .down (by decide) (.done _)⟩

end SB
