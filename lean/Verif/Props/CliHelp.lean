import Verif.Props.Cli

/-!
# C110: help and version
-/

namespace SB
open SB.Cli

theorem top_word {g : Given} {w : Str} {ws : List Str} (h0 : w.head? = some '-') (h1 : w ≠ str "--") (h2 : word none none g w ≠ .value) :
    parseTop g none (w :: ws) = match word none none g w with
      | .go g' p => parseTop g' p ws
      | .refused => .refused
      | .help => .help
      | .version => .version
      | .value => .refused := by
  rw [parseTop, if_neg (fun h => not_help_dash h0 h.2)]
  simp only [if_true, actionOf_dash h0, if_neg h1]
  cases h : word none none g w <;> first | rfl | exact absurd h h2

theorem word_named {pl : Option Action} {n : Str} (h : n = str "help" ∨ (n = str "version" ∧ pl = none)) (g : Given) :
    word pl none g (str "--" ++ n) = (if n = str "help" then .help else .version) ∧ (∀ v, word pl none g (str "--" ++ n ++ str "=" ++ v) = .refused) ∧
    ∀ o, word pl (some o) g (str "--" ++ n) = .refused := by
  rcases h with rfl | ⟨rfl, rfl⟩
  · refine ⟨by rw [word_long, longWord]; rfl, fun v => ?_, fun o => by rw [word_long, longWord]; rfl⟩
    rw [show str "--" ++ str "help" ++ str "=" ++ v = str "--" ++ (str "help" ++ '=' :: v) by simp [str], word_long, longWord, splitEq_eq v (by decide)]
    rfl
  · refine ⟨by rw [word_long, longWord]; rfl, fun v => ?_, fun o => by rw [word_long, longWord]; rfl⟩
    rw [show str "--" ++ str "version" ++ str "=" ++ v = str "--" ++ (str "version" ++ '=' :: v) by simp [str], word_long, longWord, splitEq_eq v (by decide)]
    rfl

/-- **C110, help and version**: after any sensible options `--help`, `-h` and `help` show the help, `--version` and `-V` the version, whatever follows; a value for them is refused, and they are not taken for
the value of the option before them. -/
theorem C110_help (items : List Spec.Item) (pre rest : List Str) (h : Spec.Options items pre) (hs : Spec.Sensible items) :
    (∀ w ∈ [str "--help", str "-h", str "help"], parseArgs (pre ++ w :: rest) = .help) ∧ (∀ w ∈ [str "--version", str "-V"], parseArgs (pre ++ w :: rest) = .version) ∧
    (∀ v, parseArgs (pre ++ (str "--help=" ++ v) :: rest) = .refused ∧ parseArgs (pre ++ (str "--version=" ++ v) :: rest) = .refused) ∧
    ∀ o, ¬ Spec.NeedsEquals o → parseArgs (pre ++ (str "--" ++ Spec.optName o) :: str "--help" :: rest) = .refused ∧ parseArgs (pre ++ (str "--" ++ Spec.optName o) :: str "--version" :: rest) = .refused := by
  obtain ⟨g, hg⟩ := apply_sensible items hs
  have go : ∀ ws, parseArgs (pre ++ ws) = parseTop g none ws := fun ws => top_options h hg ws
  have hh : word none none g (str "--help") = .help := (word_named (pl := none) (n := str "help") (Or.inl rfl) g).1
  have hv : word none none g (str "--version") = .version := (word_named (pl := none) (n := str "version") (Or.inr ⟨rfl, rfl⟩) g).1
  have sh : word none none g (str "-h") = .help := (word_short (t := str "h") (by decide) (by decide) none none g).trans rfl
  have sv : word none none g (str "-V") = .version := (word_short (t := str "V") (by decide) (by decide) none none g).trans rfl
  refine ⟨fun w hw => ?_, fun w hw => ?_, fun v => ?_, fun o ho => ?_⟩
  · rw [go]
    simp only [List.mem_cons, List.not_mem_nil, or_false] at hw
    rcases hw with rfl | rfl | rfl
    · rw [top_word rfl (by decide) (by rw [hh]; simp), hh]
    · rw [top_word rfl (by decide) (by rw [sh]; simp), sh]
    · rw [parseTop, if_pos ⟨rfl, rfl⟩]
  · rw [go]
    simp only [List.mem_cons, List.not_mem_nil, or_false] at hw
    rcases hw with rfl | rfl
    · rw [top_word rfl (by decide) (by rw [hv]; simp), hv]
    · rw [top_word rfl (by decide) (by rw [sv]; simp), sv]
  · rw [go, go]
    have h1 := (word_named (pl := none) (n := str "help") (Or.inl rfl) g).2.1 v
    have h2 := (word_named (pl := none) (n := str "version") (Or.inr ⟨rfl, rfl⟩) g).2.1 v
    have e1 : str "--" ++ str "help" ++ str "=" ++ v = str "--help=" ++ v := rfl
    have e2 : str "--" ++ str "version" ++ str "=" ++ v = str "--version=" ++ v := rfl
    rw [e1] at h1; rw [e2] at h2
    constructor
    · rw [top_word rfl (by intro h; simp [str] at h) (by rw [h1]; simp), h1]
    · rw [top_word rfl (by intro h; simp [str] at h) (by rw [h2]; simp), h2]
  · have hm : missing o = none := by cases o <;> simp [Spec.NeedsEquals] at ho <;> rfl
    have hw : word none none g (str "--" ++ Spec.optName o) = .go g (some o) := by rw [word_opt, hm]; rfl
    have two : ∀ w, w ≠ str "--" → word none (some o) g w = .refused → parseTop g (some o) (w :: rest) = .refused := by
      intro w h1 h2
      rw [parseTop, if_neg (by simp)]
      simp only [reduceCtorEq, if_false, if_neg h1, h2]
    rw [go, go, top_word rfl (by cases o <;> decide) (by rw [hw]; simp), top_word rfl (by cases o <;> decide) (by rw [hw]; simp), hw]
    exact ⟨two _ (by decide) ((word_named (pl := none) (n := str "help") (Or.inl rfl) g).2.2 o), two _ (by decide) ((word_named (pl := none) (n := str "version") (Or.inr ⟨rfl, rfl⟩) g).2.2 o)⟩

/-- **C110, help for an action**: right after an action `--help` and `-h` show its help; there is no `--version` there. -/
theorem C110_action_help (items : List Spec.Item) (pre rest : List Str) (a : Action) (h : Spec.Options items pre) (hs : Spec.Sensible items) :
    parseArgs (pre ++ Spec.actionName a :: str "--help" :: rest) = .help ∧ parseArgs (pre ++ Spec.actionName a :: str "-h" :: rest) = .help ∧
    parseArgs (pre ++ Spec.actionName a :: str "--version" :: rest) = .refused ∧ ∀ v, parseArgs (pre ++ Spec.actionName a :: (str "--help=" ++ v) :: rest) = .refused := by
  obtain ⟨g, hg⟩ := apply_sensible items hs
  have go : ∀ ws, parseArgs (pre ++ Spec.actionName a :: ws) = parseAction g a {} none [] ws := fun ws => by
    refine (top_options h hg _).trans ?_
    rw [parseTop, if_neg (by rintro ⟨_, h⟩; revert h; cases a <;> decide)]
    simp only [if_true, actionOf_name]
  have act : ∀ w, w ≠ str "--" → ∀ x, word (some a) none {} w = x → x ≠ .value → (∀ g' p, x ≠ .go g' p) → parseAction g a {} none [] (w :: rest) = match x with
      | .help => .help | .version => .version | _ => .refused := by
    intro w h1 x hx h2 h3
    rw [parseAction, if_neg h1]
    simp only [hx]
    cases x <;> first | rfl | exact absurd rfl h2 | exact absurd rfl (h3 _ _)
  have hv : word (some a) none {} (str "--version") = .refused := by
    refine (word_long (some a) none {} (str "version")).trans ?_
    cases a <;> rfl
  rw [go, go, go]
  refine ⟨?_, ?_, ?_, fun v => ?_⟩
  · rw [act (str "--help") (by decide) .help (word_named (n := str "help") (Or.inl rfl) _).1 (by simp) (by simp)]
  · rw [act (str "-h") (by decide) .help ((word_short (t := str "h") (by decide) (by decide) (some a) none {}).trans (by cases a <;> rfl)) (by simp) (by simp)]
  · rw [act _ (by decide) .refused hv (by simp) (by simp)]
  · rw [go, act (str "--help=" ++ v) (by intro h; simp [str] at h) .refused ((word_named (n := str "help") (Or.inl rfl) _).2.1 v) (by simp) (by simp)]

-- a concrete case: `sandbox --name n -v --version`
example : parseArgs [str "--name", str "n", str "-v", str "--version", str "x"] = .version ∧ parseArgs [str "--name", str "--help"] = .refused ∧ parseArgs [str "--version=2"] = .refused ∧
    parseArgs [str "-v", str "accept", str "--help"] = .help ∧ parseArgs [str "-v", str "accept", str "--version"] = .refused := by decide +kernel

end SB
