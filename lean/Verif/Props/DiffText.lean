import Verif.Model.DiffText
import Verif.Props.Reported
import Verif.Props.Diff
import Verif.Props.Exec

/-!
# C75: what `sandbox diff` compares and prints; C76: the programs that are run
-/

namespace SB

theorem diff_map {env : Env} {st : State} (h : DiffOut.panic ∉ diff env st) : diff env st = (selected env st).map (diffEntry st) := by
  unfold diff at h ⊢
  exact diffRun_length (fun e he hp => h (mem_diffRun_panic.2 ⟨e, he, hp⟩))

theorem remove_dest {env : Env} {st : State} {e : Entry} {s : Details} (he : e ∈ changes env st) (ho : e.op = .remove) (hs : e.source = some s) : e.dest = s.path := by
  obtain ⟨ue, hue, h | h⟩ := mem_changes.1 he
  · obtain ⟨m, mp, sub, _, hi⟩ := mem_upperEntries hue
    obtain ⟨sp, hsp, _, _, _, hd, _⟩ := mem_removesOf h
    rcases hd with ⟨_, _, hsrc, _⟩ | ⟨_, hde, hsrc, _⟩
    · rw [hsrc] at hs
      exact (details_path hs).1.symm
    · rw [hsrc, hi.details, hsp, Option.bind_some] at hs
      rw [(details_path hs).1, hde]
  · obtain ⟨_, _, _, _, _, hx⟩ := mem_setsOf h
    rcases hx with ⟨_, _, hx⟩ | ⟨_, _, hx⟩ | ⟨_, _, hx⟩ | ⟨_, _, hx⟩ <;> rw [ho] at hx <;> cases hx

theorem stat_reg {fs : FS} (hw : fs.WF) {q : Path} {k : Node} {c : Str} (hg : fs.get q = some k) (hk : k.kind = .reg c) : fs.stat q = .ok k := by
  rw [FS.stat_chain (hw.normal_of_get hg) hw.root (hw.chain hg) (fun x hx => by rw [hg] at hx; cases hx; simp [Node.isLnk, hk, Kind.isLnk]), hg]

theorem stat_absent {fs : FS} (hw : fs.WF) {q : Path} (hN : NormalPath q) (hl : fs.NoLinkAbove q) (hg : fs.get q = none) : ∃ e, fs.stat q = .error e := by
  unfold FS.stat
  cases hr : fs.realpath q with
  | error e => exact ⟨e, rfl⟩
  | ok c =>
    obtain ⟨n, hn⟩ := (FS.realpath_ok_get hw.root hN (fun y hy n hn => hl y hy n hn) hr).2
    rw [hg] at hn; cases hn

/-- **C75 (partial)**: `sandbox diff` shows the difference between the host and what a process in the sandbox sees.  If the host has a regular file that is gone in the sandbox,
its content is compared with nothing; if the sandbox sees a regular file that is new or differs from the host's regular file, the host's content (nothing, if there is no
such file) is compared with the content seen in the sandbox.
Missing: states in which diff crashes (`C19_refuted`), files below a symbolic link of the host (`C75_refuted_below_link`), links (`C75_refuted_link`), renamed directories. -/
theorem C75_shown_partial (env : Env) (st : State) (hw : st.lower.WF) (hp : Spec.PlainStorage env st) (hall : Spec.AllSelected env st) (hnp : DiffOut.panic ∉ diff env st)
    (m : Name) (mp sub : Path) (hs : Spec.Seen env st m mp (mp ++ sub)) :
    (∀ k c, st.lower.get (mp ++ sub) = some k → k.kind = .reg c → Spec.view st m mp sub = none →
      ∃ o ∈ diff env st, o = .diff (some (mp ++ sub)) none ∧ diffContents st o = some (c, [])) ∧
    (∀ n d k c, Spec.view st m mp sub = some n → n.kind = .reg d → st.lower.get (mp ++ sub) = some k → k.kind = .reg c → ¬ Spec.SameNode n k →
      ∃ o ∈ diff env st, o = .diff (some (mp ++ sub)) (some (m :: sub)) ∧ diffContents st o = some (c, d)) ∧
    (∀ n d, Spec.view st m mp sub = some n → n.kind = .reg d → st.lower.get (mp ++ sub) = none →
      (∀ a k, Below a (mp ++ sub) → st.lower.get a = some k → Spec.ftype k.kind ≠ .symlink) →
      ∃ o ∈ diff env st, o = .diff none (some (m :: sub)) ∧ diffContents st o = some ([], d)) := by
  have hne : sub ≠ [] := by
    rintro rfl
    have := hs.below
    rw [List.append_nil] at this
    exact not_below_self _ this
  obtain ⟨v1, v2⟩ := view_stored hw hp hs
  have hmem : ∀ e ∈ selected env st, diffEntry st e ∈ diff env st := by
    intro e he
    rw [diff_map hnp]
    exact List.mem_map.2 ⟨e, he, rfl⟩
  refine ⟨?_, ?_, ?_⟩
  · intro k c hk hc hv
    obtain ⟨y, n, hy, hyp, hyg, hyh, hself⟩ := v2 hv (by rw [hk]; simp)
    obtain ⟨e, he, ho, s, hs1, hs2⟩ := hiding_removes hw hp hall hs.decode hy hyg hyh hk ((List.prefix_append_right_inj mp).2 hyp)
      (fun he => hself (List.append_cancel_left he).symm)
    have hd : e.dest = mp ++ sub := (remove_dest (mem_selected he) ho hs1).trans hs2
    have hst := stat_reg hw hk hc
    have ho' : diffEntry st e = .diff (some (mp ++ sub)) none := by
      unfold diffEntry
      rw [ho, hd]
      simp [FS.pisFile, FS.pexists, hst, Node.isReg, hc, Kind.isReg]
    refine ⟨_, hmem e he, ho', ?_⟩
    rw [ho']
    simp [diffContents, readLeft, FS.pisDir, hst, Node.isDir, hc, readText]
  · intro n d k c hv hn hk hc hd
    rcases v1 n hv with ⟨hg, hwn⟩ | ⟨_, hg⟩
    · obtain ⟨e, he, h1, h2, _, h4⟩ := stored_entry hp hall hs.decode hne hg hwn
      have hsup : n.supported = true := by simp [Node.supported, Node.isReg, hn, Kind.isReg]
      obtain ⟨t, ht⟩ : Spec.IsSet e := by
        rcases h4 with ⟨_, h4, _⟩ | ⟨h4, _⟩
        · exact h4
        · rw [hsup] at h4; cases h4
      have hst := stat_reg hw hk hc
      have ho' : diffEntry st e = .diff (some (mp ++ sub)) (some (m :: sub)) := by
        unfold diffEntry
        rw [ht, h1, h2]
        simp [FS.pisFile, FS.pexists, hst, Node.isReg, hc, Kind.isReg]
      refine ⟨_, hmem e he, ho', ?_⟩
      rw [ho']
      simp [diffContents, readLeft, FS.pisDir, hst, Node.isDir, hc, readText, readStaged, hg, hn]
    · exact absurd ⟨by rw [hk] at hg; cases hg; rfl, by rw [hk] at hg; cases hg; rfl, by rw [hk] at hg; cases hg; rfl, Or.inr (by rw [hk] at hg; cases hg; rfl)⟩ hd
  · intro n d hv hn hno hl
    rcases v1 n hv with ⟨hg, hwn⟩ | ⟨_, hg⟩
    · obtain ⟨e, he, h1, h2, _, h4⟩ := stored_entry hp hall hs.decode hne hg hwn
      have hsup : n.supported = true := by simp [Node.supported, Node.isReg, hn, Kind.isReg]
      obtain ⟨t, ht⟩ : Spec.IsSet e := by
        rcases h4 with ⟨_, h4, _⟩ | ⟨h4, _⟩
        · exact h4
        · rw [hsup] at h4; cases h4
      obtain ⟨⟨g1, g2, _⟩, _⟩ := hp.mounts m mp hs.stored hs.decode
      have hN : NormalPath (mp ++ sub) := by
        intro x hx
        rcases List.mem_append.1 hx with hx | hx
        · exact hw.normal_of_get g2 x hx
        · exact hp.wf.normal_of_get hg x (List.mem_cons_of_mem _ hx)
      obtain ⟨er, hst⟩ := stat_absent hw hN (fun y hy k hk => isLnk_of_ftype (hl y k hy hk)) hno
      have ho' : diffEntry st e = .diff none (some (m :: sub)) := by
        unfold diffEntry
        rw [ht, h1, h2]
        simp [FS.pisFile, FS.pexists, hst, Node.isReg, hn, Kind.isReg]
      refine ⟨_, hmem e he, ho', ?_⟩
      rw [ho']
      simp [diffContents, readStaged, hg, hn]
    · rw [hno] at hg; cases hg

/-- Non-vacuity, with a removed, a changed and a new file. -/
example : DiffOut.panic ∉ diff exViewEnv exView ∧
    [DiffOut.diff (some [str "d", str "g"]) none, .diff (some [str "d", str "f"]) (some [str "F4", str "d", str "f"]), .diff none (some [str "F4", str "d", str "x", str "z"])].map
      (fun o => (decide (o ∈ diff exViewEnv exView), diffContents exView o)) =
      [(true, some (str "2", [])), (true, some (str "1", str "new")), (true, some ([], []))] := by decide +kernel
example : ∃ o ∈ diff exViewEnv exView, o = .diff (some [str "d", str "f"]) (some [str "F4", str "d", str "f"]) ∧ diffContents exView o = some (str "1", str "new") :=
  (C75_shown_partial exViewEnv exView exView_ordinary.wf exView_plain exView_all (by decide +kernel) (str "F4") [] [str "d", str "f"] (exView_seen _ _ (by decide))).2.1
    { kind := .reg (str "new"), uid := 7 } (str "new") { kind := .reg (str "1"), dev := 1 } (str "1") (by decide +kernel) rfl (by decide +kernel) rfl (fun h => absurd h.1 (by decide))

/-! ### The text that is printed -/

/-- Every occurrence of `pat`, from left to right and without overlaps, is replaced by `rep`. -/
inductive Spec.Replaced (pat rep : Str) : Str → Str → Prop
  | none (l) : ¬ pat <:+: l → Spec.Replaced pat rep l l
  | first (a r r') : (∀ b, b <+: a ++ pat → pat <:+ b → b = a ++ pat) → Spec.Replaced pat rep r r' → Spec.Replaced pat rep (a ++ pat ++ r) (a ++ rep ++ r')

theorem replaceFrom_skip (pat rep : Str) : ∀ (k : Nat) (a s : Str), a.length = k → k ≠ 0 ∨ a = [] → replaceFrom pat rep k (a ++ s) = replaceFrom pat rep 0 s
  | 0, a, s, h, _ => by
    have : a = [] := List.length_eq_zero_iff.1 h
    subst this; rfl
  | k + 1, [], s, h, _ => by cases h
  | k + 1, c :: a, s, h, _ => by
    rw [show replaceFrom pat rep (k + 1) (c :: a ++ s) = replaceFrom pat rep k (a ++ s) from rfl]
    by_cases hk : k = 0
    · subst hk
      have : a = [] := List.length_eq_zero_iff.1 (by simpa using h)
      subst this; rfl
    · exact replaceFrom_skip pat rep k a s (by simpa using h) (Or.inl hk)

theorem replaceFrom_spec (pat rep : Str) (hp : pat ≠ []) : ∀ (n : Nat) (l : Str), l.length ≤ n → Spec.Replaced pat rep l (replaceFrom pat rep 0 l) := by
  intro n
  induction n with
  | zero =>
    intro l hl
    have : l = [] := List.length_eq_zero_iff.1 (by omega)
    subst this
    rw [show replaceFrom pat rep 0 [] = if pat = [] then rep else [] from rfl, if_neg hp]
    exact .none _ (fun h => hp (List.infix_nil.1 h))
  | succ n ih =>
    intro l hl
    cases l with
    | nil =>
      rw [show replaceFrom pat rep 0 [] = if pat = [] then rep else [] from rfl, if_neg hp]
      exact .none _ (fun h => hp (List.infix_nil.1 h))
    | cons c s =>
      rw [show replaceFrom pat rep 0 (c :: s) = if pat = [] then rep ++ c :: replaceFrom pat rep 0 s else if pat.isPrefixOf (c :: s) then
        rep ++ replaceFrom pat rep (pat.length - 1) s else c :: replaceFrom pat rep 0 s from rfl, if_neg hp]
      by_cases hpre : pat.isPrefixOf (c :: s) = true
      · rw [if_pos hpre]
        obtain ⟨r, hr⟩ := List.isPrefixOf_iff_prefix.1 hpre
        obtain ⟨x, t, rfl⟩ : ∃ x t, pat = x :: t := by cases pat with | nil => exact absurd rfl hp | cons x t => exact ⟨x, t, rfl⟩
        simp only [List.cons_append, List.cons.injEq] at hr
        obtain ⟨rfl, rfl⟩ := hr
        have h1 : replaceFrom (x :: t) rep ((x :: t).length - 1) (t ++ r) = replaceFrom (x :: t) rep 0 r := by
          rw [show (x :: t).length - 1 = t.length by simp]
          exact replaceFrom_skip _ _ _ _ _ rfl (by cases t <;> simp)
        rw [h1]
        have := Spec.Replaced.first (pat := x :: t) (rep := rep) [] r _ (fun b hb hs => ?_) (ih r (by simp at hl; omega))
        · simpa using this
        · simp only [List.nil_append] at hb ⊢
          exact hb.eq_of_length (Nat.le_antisymm hb.length_le hs.length_le)
      · rw [if_neg hpre]
        have hn : ¬ pat <+: c :: s := fun h => hpre (List.isPrefixOf_iff_prefix.2 h)
        have := ih s (by simpa using hl)
        generalize replaceFrom pat rep 0 s = s' at this
        cases this with
        | none _ h =>
          refine .none _ (fun hi => ?_)
          rcases List.infix_cons_iff.1 hi with h1 | h1
          · exact hn h1
          · exact h h1
        | first a r r' h1 h2 =>
          rw [show c :: (a ++ pat ++ r) = (c :: a) ++ pat ++ r from rfl, show c :: (a ++ rep ++ r') = (c :: a) ++ rep ++ r' from rfl]
          refine .first _ _ _ (fun b hb hs => ?_) h2
          cases b with
          | nil => exact absurd (List.suffix_nil.1 hs) hp
          | cons y b =>
            simp only [List.cons_append, List.cons_prefix_cons] at hb ⊢
            obtain ⟨rfl, hb⟩ := hb
            rcases List.suffix_cons_iff.1 hs with h3 | h3
            · exfalso
              apply hn
              have : y :: b <+: y :: (a ++ pat ++ r) := List.cons_prefix_cons.2 ⟨rfl, hb.trans (List.prefix_append _ _)⟩
              rwa [← h3] at this
            · rw [h1 b hb h3]

/-- **C75**, the printed text: every line that the program `diff` writes is printed, in order, with the sandbox's storage path (`pat`) replaced by `<name>`; the command fails if
there is a line that is not UTF-8, and then nothing from that line on is printed. -/
theorem C75_lines (pat rep : Str) (hp : pat ≠ []) (lines : List (Option Str)) :
    (∀ ls, lines = ls.map some → (printLines pat rep lines).2 = true ∧ List.Forall₂ (Spec.Replaced pat rep) ls (printLines pat rep lines).1) ∧
    (∀ ls r, lines = ls.map some ++ none :: r → (printLines pat rep lines).2 = false ∧ List.Forall₂ (Spec.Replaced pat rep) ls (printLines pat rep lines).1) := by
  constructor
  · rintro ls rfl
    induction ls with
    | nil => exact ⟨rfl, .nil⟩
    | cons l ls ih =>
      obtain ⟨h1, h2⟩ := ih
      exact ⟨h1, .cons (replaceFrom_spec pat rep hp _ l le_rfl) h2⟩
  · rintro ls r rfl
    induction ls with
    | nil => exact ⟨rfl, .nil⟩
    | cons l ls ih =>
      obtain ⟨h1, h2⟩ := ih
      exact ⟨h1, .cons (replaceFrom_spec pat rep hp _ l le_rfl) h2⟩

/-- A line that does not contain the storage path is printed as it is. -/
theorem C75_unchanged (pat rep : Str) (hp : pat ≠ []) (l : Str) (h : ¬ pat <:+: l) : printLines pat rep [some l] = ([l], true) := by
  have := replaceFrom_spec pat rep hp _ l le_rfl
  rw [show printLines pat rep [some l] = ([replaceFrom pat rep 0 l], true) from rfl]
  generalize replaceFrom pat rep 0 l = l' at this
  cases this with
  | none => rfl
  | first a r r' => exact absurd ⟨a, r, rfl⟩ h

example : ¬ str "/s/upper" <:+: str "+hello" ∧ printLines (str "/s/upper") (str "<a>") [some (str "+++ /s/upper/F4/f"), some (str "+hello")] =
    ([str "+++ <a>/F4/f", str "+hello"], true) := by decide +kernel

theorem printLines_all {pat rep : Str} (hp : pat ≠ []) {lines : List (Option Str)} (h : none ∉ lines) :
    ∃ ls shown, lines = ls.map some ∧ printLines pat rep lines = (shown, true) ∧ List.Forall₂ (Spec.Replaced pat rep) ls shown := by
  obtain ⟨ls, rfl⟩ : ∃ ls : List Str, lines = ls.map some := by
    clear hp
    induction lines with
    | nil => exact ⟨[], rfl⟩
    | cons x r ih =>
      cases x with
      | none => simp at h
      | some y =>
        obtain ⟨ls, rfl⟩ := ih (fun hx => h (List.mem_cons_of_mem _ hx))
        exact ⟨y :: ls, rfl⟩
  obtain ⟨h1, h2⟩ := (C75_lines pat rep hp _).1 ls rfl
  exact ⟨ls, _, rfl, by rw [← h1], h2⟩

theorem diffPrint_mem {prog : DiffProg} {pat rep : Str} {st : State} (hp : pat ≠ []) (hu : ∀ l r a b, none ∉ prog l r a b) :
    ∀ {outs : List DiffOut}, DiffOut.panic ∉ outs → (diffPrint prog pat rep st outs).2 = true ∧
      (∀ l r a b, .diff l r ∈ outs → diffContents st (.diff l r) = some (a, b) →
        ∃ ls A S B, prog l r a b = ls.map some ∧ (diffPrint prog pat rep st outs).1 = A ++ S ++ B ∧ List.Forall₂ (Spec.Replaced pat rep) ls S) ∧
      ∀ x y, .moved x y ∈ outs → (str "### Moved " ++ display x ++ str " to " ++ display y) ∈ (diffPrint prog pat rep st outs).1
  | [], _ => ⟨rfl, by intro l r a b h; simp at h, by intro x y h; simp at h⟩
  | .panic :: _, h => absurd List.mem_cons_self h
  | .skip :: r, h => by
    obtain ⟨h1, h2, h3⟩ := diffPrint_mem (prog := prog) (rep := rep) (st := st) hp hu (outs := r) (fun hx => h (List.mem_cons_of_mem _ hx))
    refine ⟨h1, fun l r' a b hm hc => ?_, fun x y hm => ?_⟩
    · exact h2 l r' a b (by simpa using hm) hc
    · exact h3 x y (by simpa using hm)
  | .moved s d :: r, h => by
    obtain ⟨h1, h2, h3⟩ := diffPrint_mem (prog := prog) (rep := rep) (st := st) hp hu (outs := r) (fun hx => h (List.mem_cons_of_mem _ hx))
    refine ⟨h1, fun l r' a b hm hc => ?_, fun x y hm => ?_⟩
    · obtain ⟨ls, A, S, B, g1, g2, g3⟩ := h2 l r' a b (by simpa using hm) hc
      exact ⟨ls, (str "### Moved " ++ display s ++ str " to " ++ display d) :: A, S, B, g1, by simp only [diffPrint, g2]; rfl, g3⟩
    · simp only [diffPrint]
      rcases List.mem_cons.1 hm with hm | hm
      · cases hm; exact List.mem_cons_self
      · exact List.mem_cons_of_mem _ (h3 x y hm)
  | .diff l0 r0 :: r, h => by
    obtain ⟨h1, h2, h3⟩ := diffPrint_mem (prog := prog) (rep := rep) (st := st) hp hu (outs := r) (fun hx => h (List.mem_cons_of_mem _ hx))
    rw [diffPrint]
    cases hc0 : diffContents st (.diff l0 r0) with
    | none =>
      refine ⟨h1, fun l r' a b hm hc => ?_, fun x y hm => ?_⟩
      · rcases List.mem_cons.1 hm with hm | hm
        · cases hm; rw [hc0] at hc; cases hc
        · exact h2 l r' a b hm hc
      · exact h3 x y (by simpa using hm)
    | some ab =>
      obtain ⟨a0, b0⟩ := ab
      obtain ⟨ls, shown, e1, e2, e3⟩ := printLines_all (rep := rep) hp (hu l0 r0 a0 b0)
      simp only [e2]
      refine ⟨h1, fun l r' a b hm hc => ?_, fun x y hm => ?_⟩
      · rcases List.mem_cons.1 hm with hm | hm
        · cases hm
          rw [hc0] at hc
          cases hc
          exact ⟨ls, [], shown, _, e1, by rw [List.nil_append], e3⟩
        · obtain ⟨ls', A, S, B, g1, g2, g3⟩ := h2 l r' a b hm hc
          exact ⟨ls', shown ++ A, S, B, g1, by rw [g2]; simp, g3⟩
      · exact List.mem_append_right _ (h3 x y (by simpa using hm))

/-- **C75, what is printed (partial)**: for a regular file that differs, the lines that the program `diff` writes for the host's content and the content seen in the sandbox are printed
together, with the storage path replaced in them, and the command ends well.  `prog` is any program that writes UTF-8 only; missing: as for `C75_shown_partial`. -/
theorem C75_printed_partial (env : Env) (st : State) (hw : st.lower.WF) (hp : Spec.PlainStorage env st) (hall : Spec.AllSelected env st) (hnp : DiffOut.panic ∉ diff env st)
    (prog : DiffProg) (hu : ∀ l r a b, none ∉ prog l r a b) (pat rep : Str) (hpat : pat ≠ []) (m : Name) (mp sub : Path) (hs : Spec.Seen env st m mp (mp ++ sub)) :
    (diffPrint prog pat rep st (diff env st)).2 = true ∧
    (∀ k c, st.lower.get (mp ++ sub) = some k → k.kind = .reg c → Spec.view st m mp sub = none →
      ∃ ls A S B, prog (some (mp ++ sub)) none c [] = ls.map some ∧ (diffPrint prog pat rep st (diff env st)).1 = A ++ S ++ B ∧ List.Forall₂ (Spec.Replaced pat rep) ls S) ∧
    (∀ n d k c, Spec.view st m mp sub = some n → n.kind = .reg d → st.lower.get (mp ++ sub) = some k → k.kind = .reg c → ¬ Spec.SameNode n k →
      ∃ ls A S B, prog (some (mp ++ sub)) (some (m :: sub)) c d = ls.map some ∧ (diffPrint prog pat rep st (diff env st)).1 = A ++ S ++ B ∧
        List.Forall₂ (Spec.Replaced pat rep) ls S) ∧
    (∀ n d, Spec.view st m mp sub = some n → n.kind = .reg d → st.lower.get (mp ++ sub) = none →
      (∀ a k, Below a (mp ++ sub) → st.lower.get a = some k → Spec.ftype k.kind ≠ .symlink) →
      ∃ ls A S B, prog none (some (m :: sub)) [] d = ls.map some ∧ (diffPrint prog pat rep st (diff env st)).1 = A ++ S ++ B ∧ List.Forall₂ (Spec.Replaced pat rep) ls S) := by
  obtain ⟨c1, c2, c3⟩ := C75_shown_partial env st hw hp hall hnp m mp sub hs
  obtain ⟨h1, h2, _⟩ := diffPrint_mem (prog := prog) (rep := rep) (st := st) hpat hu hnp
  refine ⟨h1, fun k c a b d => ?_, fun n d k c x1 x2 x3 x4 x5 => ?_, fun n d x1 x2 x3 x4 => ?_⟩
  · obtain ⟨o, ho, rfl, hc⟩ := c1 k c a b d
    exact h2 _ _ _ _ ho hc
  · obtain ⟨o, ho, rfl, hc⟩ := c2 n d k c x1 x2 x3 x4 x5
    exact h2 _ _ _ _ ho hc
  · obtain ⟨o, ho, rfl, hc⟩ := c3 n d x1 x2 x3 x4
    exact h2 _ _ _ _ ho hc

/-- **C75, failures**: the command ends well if and only if it did not crash and every line that the program `diff` wrote for a pair of texts is UTF-8. -/
theorem C75_exit (prog : DiffProg) (pat rep : Str) (st : State) (outs : List DiffOut) : (diffPrint prog pat rep st outs).2 = true ↔
    DiffOut.panic ∉ outs ∧ ∀ l r a b, .diff l r ∈ outs → diffContents st (.diff l r) = some (a, b) → none ∉ prog l r a b := by
  have hp : ∀ lines, (printLines pat rep lines).2 = true ↔ none ∉ lines := by
    intro lines
    induction lines with
    | nil => simp [printLines]
    | cons x lines ih => cases x with
      | none => simp [printLines]
      | some y => simp only [printLines, List.mem_cons, reduceCtorEq, false_or]; exact ih
  induction outs with
  | nil => simp [diffPrint]
  | cons o outs ih =>
    cases o with
    | panic => simp [diffPrint]
    | skip => simp only [diffPrint, ih, List.mem_cons, reduceCtorEq, false_or]
    | moved x y => simp only [diffPrint, ih, List.mem_cons, reduceCtorEq, false_or]
    | diff l r =>
      rw [diffPrint]
      cases hc : diffContents st (.diff l r) with
      | none =>
        dsimp only
        refine Iff.trans ih ?_
        simp only [List.mem_cons, reduceCtorEq, false_or, DiffOut.diff.injEq]
        constructor
        · rintro ⟨h1, h2⟩
          refine ⟨h1, fun l' r' a b h h' => ?_⟩
          rcases h with ⟨rfl, rfl⟩ | h
          · rw [hc] at h'; cases h'
          · exact h2 l' r' a b h h'
        · rintro ⟨h1, h2⟩; exact ⟨h1, fun l' r' a b h h' => h2 l' r' a b (.inr h) h'⟩
      | some ab =>
        obtain ⟨a, b⟩ := ab
        dsimp only
        have := hp (prog l r a b)
        generalize printLines pat rep (prog l r a b) = q at this
        obtain ⟨o, ok⟩ := q
        cases ok with
        | false =>
          simp only [Bool.false_eq_true, false_iff, not_not] at this
          simp only [Bool.false_eq_true, false_iff, not_and, not_forall]
          intro _
          exact ⟨l, r, a, b, by simp, hc, by simpa using this⟩
        | true =>
          simp only [true_iff] at this
          dsimp only
          refine Iff.trans ih ?_
          simp only [List.mem_cons, reduceCtorEq, false_or, DiffOut.diff.injEq]
          constructor
          · rintro ⟨h1, h2⟩
            refine ⟨h1, fun l' r' a' b' h h' => ?_⟩
            rcases h with ⟨rfl, rfl⟩ | h
            · rw [hc] at h'; cases h'; exact this
            · exact h2 l' r' a' b' h h'
          · rintro ⟨h1, h2⟩; exact ⟨h1, fun l' r' a b h h' => h2 l' r' a b (.inr h) h'⟩

/-- Non-vacuity: a program that writes the two labels' storage name and both contents. -/
def exProg : DiffProg := fun _ r a b => (match r with | some p => [some (str "/s" ++ display p)] | none => []) ++ [some ('-' :: a), some ('+' :: b)]

example : (∀ l r a b, none ∉ exProg l r a b) ∧ (diffPrint exProg (str "/s/F4") (str "<a>") exView (diff exViewEnv exView)).2 = true ∧
    [str "<a>/d/f", str "-1", str "+new"] <:+: (diffPrint exProg (str "/s/F4") (str "<a>") exView (diff exViewEnv exView)).1 :=
  ⟨by intro l r a b; unfold exProg; cases r <;> simp, by decide +kernel, by decide +kernel⟩

/-- **C75 refuted** for the text: a line of a file that mentions the storage path is shown with another text. -/
theorem C75_refuted_content : ∃ pat rep l, l = str "+dir = /s/upper/F4" ∧ printLines pat rep [some l] = ([str "+dir = <a>/F4"], true) :=
  ⟨str "/s/upper", str "<a>", _, rfl, by decide +kernel⟩

/-! ### Links -/

/-- Host: a file `f` of the user, and a file that only root may read. -/
def exSecretHost : FS :=
  [([], { kind := .dir, perm := 0o755 }), ([str "f"], { kind := .reg (str "mine"), uid := 1000, perm := 0o644 }), ([str "etc"], { kind := .dir, perm := 0o755 }),
   ([str "etc", str "shadow"], { kind := .reg (str "secret"), perm := 0o600 })]

/-- In the sandbox: `rm f; ln -s /etc/shadow f`. -/
def exSecret : State := ⟨exSecretHost,
  [([], { kind := .dir }), ([str "F4"], { kind := .dir }), ([str "F4", str "f"], { kind := .lnk (str "/etc/shadow"), uid := 1000, perm := 0o777 })]⟩

/-- **C75 refuted** for links: the sandbox replaced a file by a symbolic link to a file that its user cannot read.  The sandbox sees the link, but `sandbox diff`, which runs as
root, compares with the content of the file on the host that the link names, and so shows it. -/
theorem C75_refuted_link :
    exSecret.lower.WF ∧ Spec.view exSecret (str "F4") [] [str "f"] = some { kind := .lnk (str "/etc/shadow"), uid := 1000, perm := 0o777 } ∧
    (diff exViewEnv exSecret).map (diffContents exSecret) = [some (str "mine", str "secret")] := by decide +kernel

/-- Host: a link `a` to the directory `b`, with a file. -/
def exBelowLink : State :=
  ⟨[([], { kind := .dir }), ([str "a"], { kind := .lnk (str "b") }), ([str "b"], { kind := .dir }), ([str "b", str "f"], { kind := .reg (str "other") })],
   [([], { kind := .dir }), ([str "F4"], { kind := .dir }), ([str "F4", str "a"], { kind := .dir, opq := true }), ([str "F4", str "a", str "f"], { kind := .reg (str "new") })]⟩

/-- **C75 refuted** below links of the host: in the sandbox the link `a` to `b` was replaced by a directory with a new file `f`; diff compares it with the unrelated `b/f`. -/
theorem C75_refuted_below_link :
    exBelowLink.lower.WF ∧ exBelowLink.upper.WF ∧ exBelowLink.lower.get [str "a", str "f"] = none ∧
    some (str "other", str "new") ∈ (diff exViewEnv exBelowLink).map (diffContents exBelowLink) := by decide +kernel

/-- In the sandbox: `cd d; echo new > f; ln -sf f l; ln -sf g m; ln -s f n`, where the host has files `g`, `l` and `m` in `/d`. -/
def exRelLink : State :=
  ⟨[([], { kind := .dir }), ([str "d"], { kind := .dir }), ([str "d", str "g"], { kind := .reg (str "other") }), ([str "d", str "l"], { kind := .reg (str "1") }),
    ([str "d", str "m"], { kind := .reg (str "2") })],
   [([], { kind := .dir }), ([str "F4"], { kind := .dir }), ([str "F4", str "d"], { kind := .dir }), ([str "F4", str "d", str "f"], { kind := .reg (str "new") }),
    ([str "F4", str "d", str "l"], { kind := .lnk (str "f") }), ([str "F4", str "d", str "m"], { kind := .lnk (str "g") }), ([str "F4", str "d", str "n"], { kind := .lnk (str "f") })]⟩

/-- **C75 refuted** for relative links: if a file was replaced by a link, it is compared with the target of the link if that is in the storage, too, and with nothing if it is not (a link
to a file the sandbox did not touch); a new link is not shown at all. -/
theorem C75_refuted_relative :
    exRelLink.lower.WF ∧ exRelLink.upper.WF ∧ Spec.view exRelLink (str "F4") [] [str "d", str "l"] = some { kind := .lnk (str "f") } ∧
    ((diff exViewEnv exRelLink).filter (· ≠ .skip)).map (fun o => (o, diffContents exRelLink o)) =
      [(.diff none (some [str "F4", str "d", str "f"]), some ([], str "new")), (.diff (some [str "d", str "l"]) (some [str "F4", str "d", str "l"]), some (str "1", str "new")),
       (.diff (some [str "d", str "m"]) (some [str "F4", str "d", str "m"]), some (str "2", []))] := by decide +kernel

/-- Host: a directory `d` with a file `d`.  In the sandbox: `rm -r d; echo new > d`. -/
def exDirFile : State :=
  ⟨[([], { kind := .dir }), ([str "d"], { kind := .dir }), ([str "d", str "d"], { kind := .reg (str "inner") }), ([str "d", str "x"], { kind := .reg (str "x") })],
   [([], { kind := .dir }), ([str "F4"], { kind := .dir }), ([str "F4", str "d"], { kind := .reg (str "new") })]⟩

/-- **C75 refuted** for a directory replaced by a file: `diff DIRECTORY FILE` compares the file with the entry of that name in the directory, here the unrelated `/d/d`. -/
theorem C75_refuted_directory :
    exDirFile.lower.WF ∧ exDirFile.upper.WF ∧ exDirFile.lower.get [str "d"] = some { kind := .dir } ∧ Spec.view exDirFile (str "F4") [] [str "d"] = some { kind := .reg (str "new") } ∧
    (.diff (some [str "d"]) (some [str "F4", str "d"]), some (str "inner", str "new")) ∈ (diff exViewEnv exDirFile).map (fun o => (o, diffContents exDirFile o)) := by decide +kernel

/-! ### C76 -/

/-- The directories of a `PATH`, joined by colons. -/
def Spec.colons : List Str → Str
  | [] => []
  | [d] => d
  | d :: ds => d ++ ':' :: Spec.colons ds

/-- `dirs` are the directories that `path` lists. -/
def Spec.PathDirs (path : Str) (dirs : List Str) : Prop := dirs ≠ [] ∧ (∀ d ∈ dirs, ':' ∉ d) ∧ path = Spec.colons dirs

theorem splitColon_join {d : Str} (hd : ':' ∉ d) : (∀ r, splitColon (d ++ ':' :: r) = d :: splitColon r) ∧ splitColon d = [d] := by
  induction d with
  | nil => exact ⟨fun r => by simp [splitColon], rfl⟩
  | cons c d ih =>
    have hc : c ≠ ':' := fun h => hd (by simp [h])
    obtain ⟨h1, h2⟩ := ih (fun h => hd (by simp [h]))
    refine ⟨fun r => ?_, ?_⟩
    · rw [List.cons_append, splitColon, if_neg hc, h1]
    · rw [splitColon, if_neg hc, h2]

theorem splitColon_dirs {path : Str} {dirs : List Str} (h : Spec.PathDirs path dirs) : splitColon path = dirs := by
  obtain ⟨h0, h1, rfl⟩ := h
  induction dirs with
  | nil => exact absurd rfl h0
  | cons d ds ih =>
    cases ds with
    | nil => exact (splitColon_join (h1 d (by simp))).2
    | cons e es =>
      rw [Spec.colons, (splitColon_join (h1 d (by simp))).1, ih (by simp) (fun x hx => h1 x (by simp [hx]))]
      simp

/-- Every text lists some directories. -/
theorem pathDirs_exists (path : Str) : ∃ dirs, Spec.PathDirs path dirs := by
  induction path with
  | nil => exact ⟨[[]], by simp, by simp, rfl⟩
  | cons c r ih =>
    obtain ⟨dirs, h0, h1, h2⟩ := ih
    cases dirs with
    | nil => exact absurd rfl h0
    | cons d ds =>
      by_cases hc : c = ':'
      · subst hc
        exact ⟨[] :: d :: ds, by simp, by simpa using h1, by rw [Spec.colons, ← h2]; simp; simp⟩
      · refine ⟨(c :: d) :: ds, by simp, ?_, ?_⟩
        · simp only [List.mem_cons, forall_eq_or_imp] at h1 ⊢
          exact ⟨by rintro (h | h); exacts [hc h.symm, h1.1 h], h1.2⟩
        · rw [h2]; cases ds <;> rfl

/-- The absolute directory `d` has an executable regular file called `diff`, whose real place is `f`. -/
def Spec.HasDiff (fs : FS) (d : Str) (f : Path) : Prop :=
  d.head? = some '/' ∧ ∃ n, fs.stat (components d ++ [str "diff"]) = .ok n ∧ n.isReg = true ∧ n.perm % 2 = 1 ∧ fs.realpath (components d ++ [str "diff"]) = .ok f

theorem findSome_first {α β : Type} {g : α → Option β} {b : β} : ∀ {l : List α}, l.findSome? g = some b → ∃ pre a post, l = pre ++ a :: post ∧ g a = some b ∧ ∀ x ∈ pre, g x = none
  | [], h => by cases h
  | a :: l, h => by
    rw [List.findSome?_cons] at h
    cases ha : g a with
    | some b' => rw [ha] at h; cases h; exact ⟨[], a, l, rfl, ha, by simp⟩
    | none =>
      rw [ha] at h
      obtain ⟨pre, a', post, rfl, h1, h2⟩ := findSome_first h
      exact ⟨a :: pre, a', post, rfl, h1, by simpa using ⟨ha, h2⟩⟩

/-- **C76 (partial)**: a command run in a sandbox has the user's ids only, and no sequence of system calls gives it others.  Missing: supplementary groups (`C50_refuted_groups`). -/
theorem C76_command_partial (x : ExecWorld) (p : Process) (t : ExecTarget) (cmd : List Str) (l : Launch) (hroot : p.creds.euid = 0) (hu : t.uid ≠ 0) (h : execIn x p t cmd = .ok l)
    (c : Creds) (hc : Spec.CanBecome l.proc.creds c) : Spec.OnlyIds c t.uid t.gid := by
  have hl := (C66_command x p t cmd l hroot h).2.2.2.2.1
  induction hc with
  | refl => exact hl
  | step k _ hk ih => exact (onlyIds_call hu ih k hk).1

/-- **C76 (partial)**: `sandbox diff` runs, with the credentials of the tool itself, the executable file called `diff` in the first absolute directory of `PATH` (`/bin:/usr/bin` if it is not set) that has one; if every such
file belongs to root, so does the program that is run.  Missing: `PATH` is the caller's (`C76_refuted_diff`). -/
theorem C76_diff_partial (fs : FS) (p : Process) (path : Str)
    (hp : getVar (str "PATH") p.env = some (.text path) ∨ getVar (str "PATH") p.env = none ∧ path = str "/bin:/usr/bin") (dirs : List Str) (hd : Spec.PathDirs path dirs) (f : Path) (c : Creds)
    (h : spawnDiff fs p = some (f, c)) :
    c = p.creds ∧ (∃ pre d post, dirs = pre ++ d :: post ∧ Spec.HasDiff fs d f ∧ ∀ d' ∈ pre, ∀ f', ¬ Spec.HasDiff fs d' f') ∧
    ((∀ d ∈ dirs, ∀ n, fs.stat (components d ++ [str "diff"]) = .ok n → n.uid = 0) → ∃ n, fs.get f = some n ∧ n.uid = 0) := by
  unfold spawnDiff at h
  replace h : (findProgram fs path (str "diff")).map (fun f => (f, p.creds)) = some (f, c) := by
    rcases hp with hp | ⟨hp, rfl⟩ <;> rw [hp] at h <;> exact h
  simp only [Option.map_eq_some_iff, Prod.mk.injEq] at h
  obtain ⟨g, hg, rfl, rfl⟩ := h
  unfold findProgram at hg
  rw [splitColon_dirs hd] at hg
  obtain ⟨pre, d, post, he, hg, hpre⟩ := findSome_first hg
  have hhas : Spec.HasDiff fs d g := by
    split at hg
    · cases hg
    · rename_i ha
      split at hg
      · next n hn =>
        split at hg
        · rename_i hx
          simp only [Bool.and_eq_true, beq_iff_eq] at hx
          split at hg
          · next c' hc' => cases hg; exact ⟨by simpa using ha, n, hn, hx.1, hx.2, hc'⟩
          · cases hg
        · cases hg
      · cases hg
  refine ⟨rfl, ⟨pre, d, post, he, hhas, fun d' hd' f' hf' => ?_⟩, fun hr => ?_⟩
  · obtain ⟨h1, n, h2, h3, h4, h5⟩ := hf'
    have := hpre d' hd'
    rw [if_neg (by simp [h1]), h2] at this
    dsimp only at this
    rw [if_pos (by simp [h3, h4]), h5] at this
    cases this
  · obtain ⟨_, n, hn, _, _, hc'⟩ := hhas
    have h1 := hr d (by rw [he]; simp) n hn
    unfold FS.stat at hn
    rw [hc'] at hn
    simp only at hn
    cases hgc : fs.get g with
    | none => rw [hgc] at hn; cases hn
    | some k =>
      rw [hgc] at hn
      cases hn
      exact ⟨_, rfl, h1⟩

/-- A host on which a user has put a program called `diff` into a directory of their own. -/
def exPathHost : FS :=
  [([], { kind := .dir, perm := 0o755 }), ([str "usr"], { kind := .dir, perm := 0o755 }), ([str "usr", str "bin"], { kind := .dir, perm := 0o755 }),
   ([str "usr", str "bin", str "diff"], { kind := .reg (str "GNU"), perm := 0o755 }), ([str "home"], { kind := .dir, perm := 0o755 }),
   ([str "home", str "u"], { kind := .dir, uid := 1000, perm := 0o755 }), ([str "home", str "u", str "diff"], { kind := .reg (str "mine"), uid := 1000, perm := 0o755 })]

/-- The set-uid program started by user 1000 with the given `PATH`. -/
def exPathProc (path : Str) : Process :=
  { ns := fun _ => 1, childPidNs := 1, cwd := [], creds := ⟨1000, 0, 0, 1000, 1000, 1000, []⟩, env := [(str "PATH", .text path)] }

/-- Non-vacuity of `C76_diff_partial`. -/
example : Spec.PathDirs (str "/usr/bin:/bin") [str "/usr/bin", str "/bin"] ∧
    (∀ d ∈ [str "/usr/bin", str "/bin"], ∀ n, exPathHost.stat (components d ++ [str "diff"]) = .ok n → n.uid = 0) ∧
    spawnDiff exPathHost (exPathProc (str "/usr/bin:/bin")) = some ([str "usr", str "bin", str "diff"], ⟨1000, 0, 0, 1000, 1000, 1000, []⟩) := by
  refine ⟨⟨by simp, by decide, by decide⟩, ?_, by decide +kernel⟩
  have h2 : exPathHost.stat (components (str "/usr/bin") ++ [str "diff"]) = .ok { kind := .reg (str "GNU"), perm := 0o755 } := by decide +kernel
  have h3 : exPathHost.stat (components (str "/bin") ++ [str "diff"]) = .error .ENOENT := by decide +kernel
  intro d hd n hn
  simp only [List.mem_cons, List.not_mem_nil, or_false] at hd
  rcases hd with rfl | rfl
  · rw [h2] at hn; cases hn; rfl
  · rw [h3] at hn; cases hn

/-- Non-vacuity of `C76_diff_partial` without `PATH`. -/
example : getVar (str "PATH") { exPathProc [] with env := [] }.env = none ∧ Spec.PathDirs (str "/bin:/usr/bin") [str "/bin", str "/usr/bin"] ∧
    spawnDiff exPathHost { exPathProc [] with env := [] } = some ([str "usr", str "bin", str "diff"], ⟨1000, 0, 0, 1000, 1000, 1000, []⟩) :=
  ⟨by decide, ⟨by simp, by decide, by decide⟩, by decide +kernel⟩

/-- **C76 refuted**: installed set-uid root, `sandbox diff` runs a program that the calling user has written, found through the user's `PATH`, with effective user id 0. -/
theorem C76_refuted_diff :
    exPathHost.WF ∧ ∃ f c n, spawnDiff exPathHost (exPathProc (str "/home/u:/usr/bin")) = some (f, c) ∧ exPathHost.get f = some n ∧ n.uid = 1000 ∧ c.ruid = 1000 ∧ c.euid = 0 :=
  ⟨by decide +kernel, [str "home", str "u", str "diff"], ⟨1000, 0, 0, 1000, 1000, 1000, []⟩, { kind := .reg (str "mine"), uid := 1000, perm := 0o755 },
    by decide +kernel, by decide +kernel, rfl, rfl, rfl⟩

end SB
