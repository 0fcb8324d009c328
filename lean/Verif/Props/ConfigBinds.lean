import Verif.Props.ConfigFiles
import Verif.Lib.FSLemmas
import Verif.Lib.ListVar

/-!
# C36: binds are additive, conflicts are errors; C37: syntax of binds; C38: masks stay masks; C40: network
-/

namespace SB

/-! ### Specification -/

/-- `s` is `source`, `source:target` or `source:target:options`, split at the first two colons. -/
inductive Spec.BindSyntax : Str → Str → Option Str → Option Str → Prop where
  | one (a) : ':' ∉ a → Spec.BindSyntax a a none none
  | two (a t) : ':' ∉ a → ':' ∉ t → Spec.BindSyntax (a ++ ':' :: t) a (some t) none
  | three (a t o) : ':' ∉ a → ':' ∉ t → Spec.BindSyntax (a ++ ':' :: (t ++ ':' :: o)) a (some t) (some o)

/-- Meaning of the option text. -/
inductive Spec.OptionText : Option Str → BindOpt → Prop where
  | missing : Spec.OptionText none .rw
  | empty : Spec.OptionText (some []) .rw
  | rw : Spec.OptionText (some (str "rw")) .rw
  | ro : Spec.OptionText (some (str "ro")) .ro
  | mask : Spec.OptionText (some (str "mask")) .mask

/-- The text that names the target: the source if it is missing or empty. -/
def Spec.targetText (a : Str) (t : Option Str) : Str := match t with | none => a | some t => if t = [] then a else t

/-- The target: the real path of what it names on the host if that exists, else the path as given. -/
def Spec.targetPath (w : World) (t : Str) : RPath :=
  match (expandTilde w.home t).canonicalize w.fs w.cwd with
  | some c => ⟨true, c⟩
  | none => expandTilde w.home t

/-- The bind string `s` asks for `source` to appear at `target` with option `opt`. -/
def Spec.BindDenotes (w : World) (s : Str) (source : Path) (target : RPath) (opt : BindOpt) : Prop :=
  ∃ a t o, Spec.BindSyntax s a t o ∧ (expandTilde w.home a).canonicalize w.fs w.cwd = some source ∧ target = Spec.targetPath w (Spec.targetText a t) ∧
    Spec.OptionText o opt

/-- A layer asks for the bind `s`. -/
inductive Spec.AsksBind (w : World) (a : Args) (files : List Str) : Str → Prop where
  | file (f p l s) : f ∈ files → w.readConfig f = some p → p.bind = some l → s ∈ l → Spec.AsksBind w a files s
  | env (v s) : w.vars.bind = some v → Spec.ListItem v s → Spec.AsksBind w a files s
  | cli (l s) : a.bind = some l → s ∈ l → Spec.AsksBind w a files s

/-- A layer asks for the path `m` to be masked. -/
inductive Spec.AsksMask (w : World) (a : Args) (files : List Str) : Str → Prop where
  | file (f p l s) : f ∈ files → w.readConfig f = some p → p.mask = some l → s ∈ l → Spec.AsksMask w a files s
  | env (v s) : w.vars.mask = some v → Spec.ListItem v s → Spec.AsksMask w a files s
  | cli (l s) : a.mask = some l → s ∈ l → Spec.AsksMask w a files s

/-! ### C37 -/

theorem cutColon_spec : ∀ s : Str, ':' ∉ (cutColon s).1 ∧ (match (cutColon s).2 with | none => s = (cutColon s).1 | some r => s = (cutColon s).1 ++ ':' :: r)
  | [] => by simp [cutColon]
  | c :: r => by
    obtain ⟨h1, h2⟩ := cutColon_spec r
    unfold cutColon
    split
    · next h => subst h; simp
    · next h =>
      refine ⟨?_, ?_⟩
      · simp only [List.mem_cons, not_or]
        exact ⟨fun h' => h h'.symm, h1⟩
      · dsimp only
        generalize hb : (cutColon r).2 = b at h2
        cases b with
        | none => simp only at h2 ⊢; rw [← h2]
        | some x => simp only at h2 ⊢; rw [List.cons_append, ← h2]

theorem cutColon_none {s : Str} (h : ':' ∉ s) : cutColon s = (s, none) := by
  induction s with
  | nil => rfl
  | cons c r ih =>
    simp only [List.mem_cons, not_or] at h
    unfold cutColon
    rw [if_neg (fun hc => h.1 hc.symm), ih h.2]

theorem cutColon_append {a : Str} (h : ':' ∉ a) (t : Str) : cutColon (a ++ ':' :: t) = (a, some t) := by
  induction a with
  | nil => simp [cutColon]
  | cons c r ih =>
    simp only [List.mem_cons, not_or] at h
    rw [List.cons_append]
    unfold cutColon
    rw [if_neg (fun hc => h.1 hc.symm), ih h.2]

theorem splitn3_syntax (s : Str) : ∃ a t o, Spec.BindSyntax s a t o ∧ splitn3 s = a :: (t.toList ++ o.toList) ∧ (t = none → o = none) := by
  obtain ⟨h1, h2⟩ := cutColon_spec s
  unfold splitn3
  generalize hc : cutColon s = c at h1 h2
  obtain ⟨a, b⟩ := c
  cases b with
  | none =>
    simp only at h1 h2
    subst h2
    exact ⟨s, none, none, .one s h1, rfl, fun _ => rfl⟩
  | some r =>
    simp only at h1 h2 ⊢
    obtain ⟨h3, h4⟩ := cutColon_spec r
    generalize hc' : cutColon r = c' at h3 h4
    obtain ⟨t, b⟩ := c'
    cases b with
    | none =>
      simp only at h3 h4
      subst h4
      exact ⟨a, some r, none, by rw [h2]; exact .two a r h1 h3, rfl, fun h => by cases h⟩
    | some o =>
      simp only at h3 h4
      subst h4
      exact ⟨a, some t, some o, by rw [h2]; exact .three a t o h1 h3, rfl, fun h => by cases h⟩

/-- The syntax is unambiguous. -/
theorem BindSyntax_unique {s a t o a' t' o'} (h : Spec.BindSyntax s a t o) (h' : Spec.BindSyntax s a' t' o') : a = a' ∧ t = t' ∧ o = o' := by
  have key : ∀ {s a t o}, Spec.BindSyntax s a t o → splitn3 s = a :: (t.toList ++ o.toList) ∧ (t = none → o = none) := by
    intro s a t o h
    cases h with
    | one _ h => simp [splitn3, cutColon_none h]
    | two _ t h1 h2 => simp [splitn3, cutColon_append h1, cutColon_none h2]
    | three _ t o h1 h2 => simp [splitn3, cutColon_append h1, cutColon_append h2]
  obtain ⟨k, k2⟩ := key h
  obtain ⟨k', k2'⟩ := key h'
  rw [k] at k'
  cases t <;> cases o <;> cases t' <;> cases o' <;> simp_all

theorem parseOpt_spec (o : Str) (b : BindOpt) : parseOpt o = some b ↔ Spec.OptionText (some o) b := by
  unfold parseOpt
  constructor
  · intro h
    split at h
    · next h1 =>
      cases h
      rcases h1 with rfl | rfl
      · exact .empty
      · exact .rw
    · split at h
      · next h1 => cases h; subst h1; exact .ro
      · split at h
        · next h1 => cases h; subst h1; exact .mask
        · cases h
  · intro h
    cases h <;> rfl

theorem canonicalize_of_exists {fs : FS} {cwd : Path} {p : RPath} (h : p.exists fs cwd = true) : ∃ c, p.canonicalize fs cwd = some c := by
  unfold RPath.exists at h
  unfold RPath.canonicalize
  cases hp : p.at cwd with
  | none => rw [hp] at h; cases h
  | some q =>
    rw [hp] at h
    simp only at h ⊢
    unfold FS.pexists FS.stat at h
    cases hr : fs.realpath q with
    | error e => rw [hr] at h; cases h
    | ok c => exact ⟨c, rfl⟩

theorem resolved_get {fs : FS} (hw : fs.WF) : ∀ (n : Nat) (cur todo c : Path), (∃ m, fs.get cur = some m) → fs.resolveN n cur todo = .ok c → ∃ m, fs.get c = some m := by
  have hroot : ∃ m, fs.get [] = some m := by
    have := hw.root
    unfold FS.isDirAt at this
    cases h : fs.get [] with
    | none => rw [h] at this; cases this
    | some m => exact ⟨m, rfl⟩
  have hwalk : ∀ (onLink : Path → Path → Except Errno Path),
      (∀ cur todo c, (∃ m, fs.get cur = some m) → onLink cur todo = .ok c → ∃ m, fs.get c = some m) →
      ∀ (todo cur c : Path), (∃ m, fs.get cur = some m) → fs.walk onLink cur todo = .ok c → ∃ m, fs.get c = some m := by
    intro onLink hl todo
    induction todo with
    | nil => intro cur c hc h; simp only [FS.walk, Except.ok.injEq] at h; subst h; exact hc
    | cons x rest ih =>
      intro cur c hc h
      unfold FS.walk at h
      split at h
      · cases h
      · next d hd =>
        split at h
        · next hdir =>
          split at h
          · refine ih _ _ ?_ h
            by_cases hn : cur = []
            · subst hn; simpa using hc
            · have := hw.parent cur (FS.mem_keys.2 hc) hn
              rw [FS.isDirAt_iff] at this
              obtain ⟨m, hm, _⟩ := this
              exact ⟨m, hm⟩
          · split at h
            · cases h
            · next m hm =>
              split at h
              · next t _ =>
                refine hl _ _ _ ?_ h
                split
                · exact hroot
                · exact hc
              · exact ih _ _ ⟨m, hm⟩ h
        · cases h
  intro n
  induction n with
  | zero =>
    intro cur todo c hc h
    exact hwalk _ (by intro _ _ _ _ h; cases h) todo cur c hc h
  | succ n ih =>
    intro cur todo c hc h
    exact hwalk _ ih todo cur c hc h

theorem exists_iff_canonicalize {fs : FS} (hw : fs.WF) (cwd : Path) (p : RPath) : p.exists fs cwd = true ↔ (p.canonicalize fs cwd).isSome = true := by
  constructor
  · intro h
    obtain ⟨c, hc⟩ := canonicalize_of_exists h
    rw [hc]; rfl
  · intro h
    unfold RPath.canonicalize at h
    unfold RPath.exists
    cases hp : p.at cwd with
    | none => rw [hp] at h; cases h
    | some q =>
      rw [hp] at h
      simp only at h ⊢
      unfold FS.pexists FS.stat
      cases hr : fs.realpath q with
      | error e => rw [hr] at h; cases h
      | ok c =>
        have hroot : ∃ m, fs.get [] = some m := by
          have := hw.root
          rw [FS.isDirAt_iff] at this
          obtain ⟨m, hm, _⟩ := this
          exact ⟨m, hm⟩
        obtain ⟨m, hm⟩ := resolved_get hw 40 [] q c hroot hr
        simp [hm]

theorem target_eq {w : World} (hw : w.fs.WF) (t : RPath) :
    (if t.exists w.fs w.cwd then (t.canonicalize w.fs w.cwd).map RPath.ofPath else some t) =
      some (match t.canonicalize w.fs w.cwd with | some c => ⟨true, c⟩ | none => t) := by
  have := exists_iff_canonicalize hw w.cwd t
  cases h : t.canonicalize w.fs w.cwd with
  | none =>
    rw [h] at this
    rw [if_neg (by simp_all)]
  | some c =>
    rw [h] at this
    rw [if_pos (by simp_all)]
    rfl

/-- Meaning of the option part. -/
def optionOf : Option Str → Option BindOpt | none => some .rw | some o => parseOpt o

theorem parseBind_eq {w : World} (hw : w.fs.WF) {s a : Str} {t o : Option Str} (hsp : splitn3 s = a :: (t.toList ++ o.toList)) (hto : t = none → o = none) :
    parseBind w s = match (expandTilde w.home a).canonicalize w.fs w.cwd with
      | none => .error .bindSource
      | some src => match optionOf o with
        | none => .error .bindOption
        | some op => .ok ⟨src, Spec.targetPath w (Spec.targetText a t), op, s⟩ := by
  unfold parseBind
  simp only [hsp]
  rw [target_eq hw]
  cases t with
  | none =>
    obtain rfl := hto rfl
    simp only [Option.toList_none, List.append_nil, List.headD_cons, List.getElem?_cons_succ, List.getElem?_nil]
    rfl
  | some t =>
    by_cases ht : t = []
    · subst ht
      cases o with
      | none =>
        simp only [Option.toList_none, Option.toList_some, List.append_nil, List.headD_cons, List.getElem?_cons_succ, List.getElem?_nil, List.getElem?_cons_zero, Spec.targetText, if_true, ne_eq,
          not_true_eq_false, if_false]
        rfl
      | some o =>
        simp only [Option.toList_some, List.cons_append, List.nil_append, List.headD_cons, List.getElem?_cons_succ, List.getElem?_cons_zero, Spec.targetText, if_true, ne_eq, not_true_eq_false, if_false]
        rfl
    · cases o with
      | none =>
        simp only [Option.toList_none, Option.toList_some, List.append_nil, List.headD_cons, List.getElem?_cons_succ, List.getElem?_nil, List.getElem?_cons_zero, Spec.targetText, ne_eq, ht,
          not_false_eq_true, if_true, if_false]
        rfl
      | some o =>
        simp only [Option.toList_some, List.cons_append, List.nil_append, List.headD_cons, List.getElem?_cons_succ, List.getElem?_cons_zero, Spec.targetText, ne_eq, ht, not_false_eq_true, if_true, if_false]
        rfl

/-- **C37**: a bind string succeeds exactly when it denotes something, and yields what it denotes.  In particular it is split at its first two colons, and any
option text other than empty, `rw`, `ro`, `mask` is an error. -/
theorem C37_syntax (w : World) (hw : w.fs.WF) (s : Str) (b : BindMount) :
    parseBind w s = .ok b ↔ Spec.BindDenotes w s b.source b.target b.opt ∧ b.argument = s := by
  obtain ⟨a, t, o, hs, hsp, hto⟩ := splitn3_syntax s
  rw [parseBind_eq hw hsp hto]
  have hopt : ∀ op, optionOf o = some op ↔ Spec.OptionText o op := by
    intro op
    cases o with
    | none =>
      constructor
      · intro h; cases h; exact .missing
      · intro h; cases h; rfl
    | some o => exact parseOpt_spec o op
  constructor
  · intro h
    split at h
    · cases h
    · next src hsrc =>
      split at h
      · cases h
      · next op hop =>
        cases h
        exact ⟨⟨a, t, o, hs, hsrc, rfl, (hopt op).1 hop⟩, rfl⟩
  · rintro ⟨⟨a', t', o', hs', hsrc, htgt, ho'⟩, harg⟩
    obtain ⟨rfl, rfl, rfl⟩ := BindSyntax_unique hs hs'
    rw [hsrc]
    simp only [(hopt _).2 ho']
    obtain ⟨bs, bt, bo, ba⟩ := b
    simp only at htgt harg ⊢
    rw [htgt, harg]

/-- The specification is deterministic. -/
theorem BindDenotes_unique {w : World} {s : Str} {a a' : Path} {t t' : RPath} {o o' : BindOpt} (h : Spec.BindDenotes w s a t o) (h' : Spec.BindDenotes w s a' t' o') :
    a = a' ∧ t = t' ∧ o = o' := by
  obtain ⟨x, y, z, hs, h1, h2, h3⟩ := h
  obtain ⟨x', y', z', hs', h1', h2', h3'⟩ := h'
  obtain ⟨rfl, rfl, rfl⟩ := BindSyntax_unique hs hs'
  refine ⟨?_, by rw [h2, h2'], ?_⟩
  · rw [h1] at h1'; exact Option.some.inj h1'
  · cases h3 <;> cases h3' <;> rfl

/-- **C37**: unknown option text is an error. -/
theorem C37_bad_option (w : World) (s a o : Str) (t : Option Str) (h : Spec.BindSyntax s a t (some o)) (hb : ∀ b, ¬ Spec.OptionText (some o) b) (hw : w.fs.WF) :
    ∃ e, parseBind w s = .error e := by
  cases hp : parseBind w s with
  | error e => exact ⟨e, rfl⟩
  | ok b =>
    exfalso
    obtain ⟨⟨a', t', o', hs', _, _, h3⟩, _⟩ := (C37_syntax w hw s b).1 hp
    obtain ⟨rfl, rfl, rfl⟩ := BindSyntax_unique h hs'
    exact hb _ h3

theorem exCfgFs_wf : exCfgFs.WF := by decide +kernel

example : parseBind exCfgWorld (str "~/data:/mnt/x:ro") = .ok ⟨[str "home", str "u", str "data"], ⟨true, [str "mnt", str "x"]⟩, .ro, str "~/data:/mnt/x:ro"⟩ := by decide +kernel
example : parseBind exCfgWorld (str "~/data::") = .ok ⟨[str "home", str "u", str "data"], ⟨true, [str "home", str "u", str "data"]⟩, .rw, str "~/data::"⟩ := by decide +kernel
example : parseBind exCfgWorld (str "/etc:/etc:wo") = .error .bindOption := by decide +kernel
example : parseBind exCfgWorld (str "/nope") = .error .bindSource := by decide +kernel

/-! ### C38 -/

theorem colon_option {o : Str} (h : ':' ∈ o) (b : BindOpt) : ¬ Spec.OptionText (some o) b := by
  intro hb
  cases hb <;> revert h <;> decide

/-- The bind string made of a mask path denotes nothing or the mask of that path. -/
theorem mask_denotes {w : World} {m s : Str} (hs : s = maskArg m ∨ s = m ++ str "::mask") {src : Path} {tgt : RPath} {o : BindOpt} (h : Spec.BindDenotes w s src tgt o) :
    o = .mask ∧ tgt = Spec.targetPath w m ∧ (expandTilde w.home m).canonicalize w.fs w.cwd = some src := by
  obtain ⟨a, t, ot, hsyn, hsrc, htgt, hopt⟩ := h
  by_cases hm : ':' ∈ m
  · exfalso
    obtain ⟨m1, m2, hm1, rfl⟩ : ∃ m1 m2, ':' ∉ m1 ∧ m = m1 ++ ':' :: m2 := by
      obtain ⟨h1, h2⟩ := cutColon_spec m
      generalize (cutColon m).1 = c1 at h1 h2
      generalize (cutColon m).2 = c2 at h2
      cases c2 with
      | none => simp only at h2; exact absurd (h2 ▸ hm) h1
      | some r => exact ⟨c1, r, h1, h2⟩
    have hrest : ∃ r, s = m1 ++ ':' :: (m2 ++ ':' :: r) ∧ ':' ∈ r := by
      rcases hs with rfl | rfl
      · exact ⟨m1 ++ ':' :: (m2 ++ str ":mask"), by simp [maskArg, str], by simp⟩
      · exact ⟨str ":mask", by simp [str], by decide⟩
    obtain ⟨r, hr, hcr⟩ := hrest
    have h3 : ∃ t o, ':' ∉ t ∧ ':' ∈ o ∧ m2 ++ ':' :: r = t ++ ':' :: o := by
      obtain ⟨h1, h2⟩ := cutColon_spec m2
      generalize (cutColon m2).1 = c1 at h1 h2
      generalize (cutColon m2).2 = c2 at h2
      cases c2 with
      | none => simp only at h2; subst h2; exact ⟨m2, r, h1, hcr, rfl⟩
      | some x => simp only at h2; subst h2; exact ⟨c1, x ++ ':' :: r, h1, by simp, by simp⟩
    obtain ⟨t', o', ht', ho', heq⟩ := h3
    rw [heq] at hr
    obtain ⟨rfl, rfl, rfl⟩ := BindSyntax_unique hsyn (show Spec.BindSyntax s m1 (some t') (some o') from hr ▸ Spec.BindSyntax.three m1 t' o' hm1 ht')
    exact colon_option ho' _ hopt
  · rcases hs with rfl | rfl
    · have : Spec.BindSyntax (maskArg m) m (some m) (some (str "mask")) := by
        have := Spec.BindSyntax.three m m (str "mask") hm hm
        simpa [maskArg, str] using this
      obtain ⟨rfl, rfl, rfl⟩ := BindSyntax_unique hsyn this
      refine ⟨by cases hopt; rfl, ?_, hsrc⟩
      rw [htgt]
      by_cases hn : a = [] <;> simp [Spec.targetText, hn]
    · have : Spec.BindSyntax (m ++ str "::mask") m (some []) (some (str "mask")) := Spec.BindSyntax.three m [] (str "mask") hm (by simp)
      obtain ⟨rfl, rfl, rfl⟩ := BindSyntax_unique hsyn this
      exact ⟨by cases hopt; rfl, by rw [htgt]; simp [Spec.targetText], hsrc⟩

/-- **C38**: the bind made of a mask request (from the command line or the environment, `m:m:mask`; from a file, `m::mask`) is an error or a mask, on exactly that path. -/
theorem C38_mask (w : World) (hw : w.fs.WF) (m s : Str) (hs : s = maskArg m ∨ s = m ++ str "::mask") (b : BindMount) (h : parseBind w s = .ok b) :
    b.opt = .mask ∧ b.target = Spec.targetPath w m := by
  obtain ⟨h1, _⟩ := (C37_syntax w hw s b).1 h
  obtain ⟨h2, h3, _⟩ := mask_denotes hs h1
  exact ⟨h2, h3⟩

example : parseBind exCfgWorld (maskArg (str "~/data:ro")) = .error .bindOption ∧
    parseBind exCfgWorld (maskArg (str "~/data")) = .ok ⟨[str "home", str "u", str "data"], ⟨true, [str "home", str "u", str "data"]⟩, .mask, str "~/data:~/data:mask"⟩ := by
  decide +kernel

/-! ### C36 -/

theorem parseBinds_ok {w : World} : ∀ {l : List Str} {bs : List BindMount}, parseBinds w l = .ok bs → (∀ s ∈ l, ∃ b ∈ bs, parseBind w s = .ok b) ∧
    ∀ b ∈ bs, ∃ s ∈ l, parseBind w s = .ok b
  | [], bs, h => by cases h; simp
  | s :: r, bs, h => by
    unfold parseBinds at h
    split at h
    · cases h
    · next b hb =>
      split at h
      · cases h
      · next bs' hbs =>
        cases h
        obtain ⟨h1, h2⟩ := parseBinds_ok hbs
        refine ⟨?_, ?_⟩
        · intro x hx
          rcases List.mem_cons.1 hx with rfl | hx
          · exact ⟨b, by simp, hb⟩
          · obtain ⟨b', hb', h'⟩ := h1 x hx
            exact ⟨b', by simp [hb'], h'⟩
        · intro x hx
          rcases List.mem_cons.1 hx with rfl | hx
          · exact ⟨s, by simp, hb⟩
          · obtain ⟨s', hs', h'⟩ := h2 x hx
            exact ⟨s', by simp [hs'], h'⟩

theorem dedupBinds_ok : ∀ {r acc m : List BindMount}, dedupBinds acc r = .ok m → (acc.map (·.target)).Nodup →
    (m.map (·.target)).Nodup ∧ (∀ b ∈ acc, b ∈ m) ∧ (∀ b ∈ m, b ∈ acc ∨ b ∈ r) ∧
      ∀ b ∈ r, ∃ e ∈ m, e.target = b.target ∧ e.source = b.source ∧ e.opt = b.opt
  | [], acc, m, h, hn => by cases h; exact ⟨hn, fun _ h => h, fun _ h => .inl h, by simp⟩
  | b :: r, acc, m, h, hn => by
    unfold dedupBinds at h
    split at h
    · next e he =>
      have hem := List.mem_of_find?_eq_some he
      have het : e.target = b.target := by simpa using List.find?_some he
      split at h
      · cases h
      · next hc =>
        simp only [not_or, not_not] at hc
        obtain ⟨h1, h2, h3, h4⟩ := dedupBinds_ok h hn
        refine ⟨h1, h2, fun x hx => (h3 x hx).imp id (by simp +contextual), ?_⟩
        intro x hx
        rcases List.mem_cons.1 hx with rfl | hx
        · exact ⟨e, h2 e hem, het, hc.1, hc.2⟩
        · exact h4 x hx
    · next he =>
      have hnot : b.target ∉ acc.map (·.target) := by
        intro hmem
        obtain ⟨x, hx, hxt⟩ := List.mem_map.1 hmem
        have := List.find?_eq_none.1 he x hx
        simp [hxt] at this
      have hn' : ((acc ++ [b]).map (·.target)).Nodup := by
        rw [List.map_append, List.nodup_append]
        refine ⟨hn, by simp, ?_⟩
        intro x hx y hy hxy
        simp only [List.map_cons, List.map_nil, List.mem_singleton] at hy
        subst hy hxy
        exact hnot hx
      obtain ⟨h1, h2, h3, h4⟩ := dedupBinds_ok h hn'
      refine ⟨h1, fun x hx => h2 x (by simp [hx]), ?_, ?_⟩
      · intro x hx
        rcases h3 x hx with h | h
        · rcases List.mem_append.1 h with h | h
          · exact .inl h
          · simp at h; subst h; exact .inr (by simp)
        · exact .inr (by simp [h])
      · intro x hx
        rcases List.mem_cons.1 hx with rfl | hx
        · exact ⟨x, h2 x (by simp), rfl, rfl, rfl⟩
        · exact h4 x hx

/-- The lists of a `Partial` that are extended, as the concatenation over the files. -/
theorem loadFiles_lists {w : World} : ∀ {files : List Str} {acc acc' : Partial × Sources}, loadFiles w files acc = .ok acc' →
    (∀ s ∈ acc.1.bind.getD [], s ∈ acc'.1.bind.getD []) ∧ (∀ s ∈ acc.1.mask.getD [], s ∈ acc'.1.mask.getD []) ∧
    ∀ f ∈ files, ∀ p, w.readConfig f = some p → (∀ l s, p.bind = some l → s ∈ l → s ∈ acc'.1.bind.getD []) ∧ (∀ l s, p.mask = some l → s ∈ l → s ∈ acc'.1.mask.getD [])
  | [], acc, acc', h => by cases h; simp
  | f :: r, acc, acc', h => by
    unfold loadFiles at h
    split at h
    · cases h
    · next o ho =>
      obtain ⟨h1, h2, h3⟩ := loadFiles_lists h
      have e1 : (mergeConfig acc o f).1.bind = (match o.bind with | some l => extend acc.1.bind l | none => acc.1.bind) := by
        simp only [mergeConfig]
        cases o.bind <;> simp [addBind]
      have e2 : (mergeConfig acc o f).1.mask = (match o.mask with | some l => extend acc.1.mask l | none => acc.1.mask) := by
        simp only [mergeConfig]
        cases o.mask <;> simp [addMask]
      rw [e1] at h1
      rw [e2] at h2
      refine ⟨?_, ?_, ?_⟩
      · intro s hs
        apply h1
        cases o.bind with
        | none => exact hs
        | some l => cases hb : acc.1.bind <;> simp_all [extend]
      · intro s hs
        apply h2
        cases o.mask with
        | none => exact hs
        | some l => cases hb : acc.1.mask <;> simp_all [extend]
      · intro g hg p hp
        rcases List.mem_cons.1 hg with rfl | hg
        · rw [ho] at hp
          cases hp
          refine ⟨fun l s hl hs => h1 s ?_, fun l s hl hs => h2 s ?_⟩
          · rw [hl]; cases acc.1.bind <;> simp_all [extend]
          · rw [hl]; cases acc.1.mask <;> simp_all [extend]
        · exact h3 g hg p hp

theorem mem_extend {o : Option (List Str)} {l : List Str} {s : Str} : s ∈ (extend o l).getD [] ↔ s ∈ o.getD [] ∨ s ∈ l := by
  cases o <;> simp [extend]

theorem bind_members {w : World} {a : Args} {acc acc1 acc2 : Partial × Sources} (he : applyEnv w.vars a acc = .ok acc1) (hc : applyCli w a acc1 = .ok acc2) (s : Str) :
    s ∈ acc2.1.bind.getD [] ↔ (s ∈ acc.1.bind.getD [] ∨ s ∈ (listOf w.vars.bind).getD [] ∨ s ∈ ((listOf w.vars.mask).map (·.map maskArg)).getD [] ∨
      s ∈ a.bind.getD [] ∨ s ∈ (a.mask.map (·.map maskArg)).getD []) := by
  obtain ⟨_, _, _, _, _, _, _, eb, _⟩ := applyEnv_ok he
  obtain ⟨_, _, _, _, _, _, _, cb⟩ := applyCli_ok hc
  rw [cb, eb]
  generalize (listOf w.vars.mask).map (·.map maskArg) = o1
  generalize a.mask.map (·.map maskArg) = o2
  cases o1 <;> cases o2 <;> cases listOf w.vars.bind <;> cases a.bind <;> simp [mem_extend, or_assoc]

/-- The bind strings that stand for the requests of all layers are among the ones that are parsed. -/
theorem asked_requested {w : World} {a : Args} {c : Config} (h : resolveConfig w a = .ok c) :
    ∃ bs m, dedupBinds [] bs = .ok m ∧ c.bindMounts = w.hashOrder m ∧
      (∀ s, Spec.AsksBind w a c.configFiles s → ∃ b ∈ bs, parseBind w s = .ok b) ∧
      (∀ s, Spec.AsksMask w a c.configFiles s → ∃ b ∈ bs, parseBind w (maskArg s) = .ok b ∨ parseBind w (s ++ str "::mask") = .ok b) ∧
      (c.noDefaultBinds = false → ∀ s ∈ defaultBinds w c.net, ∃ b ∈ bs, parseBind w s = .ok b) := by
  obtain ⟨p0, s0, acc1, acc2, hl, he, hc, hf, _⟩ := resolve_stages h
  obtain ⟨_, _, _, _, _, _, em, eb, _⟩ := applyEnv_ok he
  obtain ⟨_, _, _, _, _, _, cm, cb⟩ := applyCli_ok hc
  obtain ⟨_, _, _, _, _, _, ⟨bs, m, hp, hd, hbm⟩, _⟩ := finish_ok hf
  obtain ⟨hpar, _⟩ := parseBinds_ok hp
  have hfiles : ∀ f ∈ c.configFiles, ∀ p, w.readConfig f = some p →
      (∀ l s, p.bind = some l → s ∈ l → s ∈ p0.bind.getD []) ∧ (∀ l s, p.mask = some l → s ∈ l → s ∈ p0.mask.getD []) := by
    unfold loadPartial at hl
    split at hl
    · cases hl
    · next ps hps =>
      simp only at hl
      split at hl
      · cases hl
      · next p' s' hl2 =>
        simp only [Except.ok.injEq, Prod.mk.injEq] at hl
        obtain ⟨rfl, rfl, rfl⟩ := hl
        exact (loadFiles_lists hl2).2.2
  have hbind : ∀ s, s ∈ acc2.1.bind.getD [] ↔ (s ∈ p0.bind.getD [] ∨ s ∈ (listOf w.vars.bind).getD [] ∨ s ∈ ((listOf w.vars.mask).map (·.map maskArg)).getD [] ∨
      s ∈ a.bind.getD [] ∨ s ∈ (a.mask.map (·.map maskArg)).getD []) := by
    exact bind_members he hc
  have hmask : acc2.1.mask = p0.mask := by rw [cm, em]
  have hreq : ∀ s, s ∈ acc2.1.bind.getD [] → ∃ b ∈ bs, parseBind w s = .ok b := by
    intro s hs
    apply hpar
    unfold bindRequests
    simp [hs]
  have hlist : ∀ (o : Option Str) v s, o = some v → Spec.ListItem v s → s ∈ (listOf o).getD [] := by
    intro o v s ho hs
    subst ho
    have hs := (mem_listVar v s).2 hs
    unfold listOf
    have : listVar v ≠ [] := List.ne_nil_of_mem hs
    rw [Option.map_some, Option.filter_some, if_pos (by simpa using this)]
    exact hs
  refine ⟨bs, m, hd, hbm, ?_, ?_, ?_⟩
  · intro s hs
    apply hreq
    rw [hbind]
    cases hs with
    | file f p l _ hf hp hl hs => exact .inl ((hfiles f hf p hp).1 l s hl hs)
    | env v _ hv hs => exact .inr (.inl (hlist _ v s hv hs))
    | cli l _ hl hs => exact .inr (.inr (.inr (.inl (by rw [hl]; exact hs))))
  · intro s hs
    cases hs with
    | file f p l _ hf hp hl hs =>
      obtain ⟨b, hb, h'⟩ := hpar (s ++ str "::mask") (by
        unfold bindRequests
        rw [hmask]
        simp only [List.mem_append, List.mem_map]
        exact .inr ⟨s, (hfiles f hf p hp).2 l s hl hs, rfl⟩)
      exact ⟨b, hb, .inr h'⟩
    | env v _ hv hs =>
      obtain ⟨b, hb, h'⟩ := hreq (maskArg s) (by
        rw [hbind]
        refine .inr (.inr (.inl ?_))
        have := hlist _ v s hv hs
        cases hx : listOf w.vars.mask with
        | none => rw [hx] at this; simp at this
        | some l => rw [hx] at this; simp only [Option.map_some, Option.getD_some, List.mem_map]; exact ⟨s, this, rfl⟩)
      exact ⟨b, hb, .inl h'⟩
    | cli l _ hl hs =>
      obtain ⟨b, hb, h'⟩ := hreq (maskArg s) (by
        rw [hbind]
        refine .inr (.inr (.inr (.inr ?_)))
        rw [hl]
        simp only [Option.map_some, Option.getD_some, List.mem_map]
        exact ⟨s, hs, rfl⟩)
      exact ⟨b, hb, .inl h'⟩
  · intro hnd s hs
    apply hpar
    unfold bindRequests
    rw [hnd]
    simp [hs]

/-- **C36**: every bind requested by any config file, the environment or the command line is in effect. -/
theorem C36_binds (w : World) (hw : w.fs.WF) (hh : ∀ l, (w.hashOrder l).Perm l) (a : Args) (c : Config) (h : resolveConfig w a = .ok c) (s : Str)
    (hs : Spec.AsksBind w a c.configFiles s) : ∃ b ∈ c.bindMounts, Spec.BindDenotes w s b.source b.target b.opt := by
  obtain ⟨bs, m, hd, hbm, h1, _, _⟩ := asked_requested h
  obtain ⟨b, hb, hpb⟩ := h1 s hs
  obtain ⟨_, _, _, h4⟩ := dedupBinds_ok hd (by simp)
  obtain ⟨e, he, e1, e2, e3⟩ := h4 b hb
  refine ⟨e, by rw [hbm]; exact (hh m).mem_iff.2 he, ?_⟩
  rw [e1, e2, e3]
  exact ((C37_syntax w hw s b).1 hpb).1

/-- **C36, C38**: every path that any layer asks to mask is masked. -/
theorem C36_masks (w : World) (hw : w.fs.WF) (hh : ∀ l, (w.hashOrder l).Perm l) (a : Args) (c : Config) (h : resolveConfig w a = .ok c) (s : Str)
    (hs : Spec.AsksMask w a c.configFiles s) : ∃ b ∈ c.bindMounts, b.opt = .mask ∧ b.target = Spec.targetPath w s := by
  obtain ⟨bs, m, hd, hbm, _, h2, _⟩ := asked_requested h
  obtain ⟨b, hb, hpb⟩ := h2 s hs
  obtain ⟨_, _, _, h4⟩ := dedupBinds_ok hd (by simp)
  obtain ⟨e, he, e1, e2, e3⟩ := h4 b hb
  refine ⟨e, by rw [hbm]; exact (hh m).mem_iff.2 he, ?_⟩
  rw [e1, e3]
  rcases hpb with hpb | hpb
  · exact C38_mask w hw s _ (.inl rfl) b hpb
  · exact C38_mask w hw s _ (.inr rfl) b hpb

/-- **C36**: each target occurs exactly once. -/
theorem C36_unique (w : World) (hh : ∀ l, (w.hashOrder l).Perm l) (a : Args) (c : Config) (h : resolveConfig w a = .ok c) : (c.bindMounts.map (·.target)).Nodup := by
  obtain ⟨bs, m, hd, hbm, _⟩ := asked_requested h
  obtain ⟨h1, _⟩ := dedupBinds_ok hd (by simp)
  rw [hbm]
  exact (((hh m).map _).nodup_iff).2 h1

/-- **C36**: two requests for one target with different sources or options are always an error. -/
theorem C36_conflict (w : World) (hw : w.fs.WF) (hh : ∀ l, (w.hashOrder l).Perm l) (a : Args) (c : Config) (h : resolveConfig w a = .ok c) (s s' : Str)
    (hs : Spec.AsksBind w a c.configFiles s) (hs' : Spec.AsksBind w a c.configFiles s') {src src' : Path} {t : RPath} {o o' : BindOpt}
    (hd : Spec.BindDenotes w s src t o) (hd' : Spec.BindDenotes w s' src' t o') : src = src' ∧ o = o' := by
  obtain ⟨b, hb, hdb⟩ := C36_binds w hw hh a c h s hs
  obtain ⟨b', hb', hdb'⟩ := C36_binds w hw hh a c h s' hs'
  obtain ⟨rfl, ht, rfl⟩ := BindDenotes_unique hd hdb
  obtain ⟨rfl, ht', rfl⟩ := BindDenotes_unique hd' hdb'
  have hn := C36_unique w hh a c h
  have : b = b' := List.inj_on_of_nodup_map hn hb hb' (by rw [← ht, ← ht'])
  subst this
  exact ⟨rfl, rfl⟩

/-- **C36**: a bind and a mask of the same target are always an error. -/
theorem C36_conflict_mask (w : World) (hw : w.fs.WF) (hh : ∀ l, (w.hashOrder l).Perm l) (a : Args) (c : Config) (h : resolveConfig w a = .ok c) (s m : Str)
    (hs : Spec.AsksBind w a c.configFiles s) (hm : Spec.AsksMask w a c.configFiles m) {src : Path} {o : BindOpt}
    (hd : Spec.BindDenotes w s src (Spec.targetPath w m) o) : o = .mask := by
  obtain ⟨b, hb, hdb⟩ := C36_binds w hw hh a c h s hs
  obtain ⟨b', hb', ho, ht'⟩ := C36_masks w hw hh a c h m hm
  obtain ⟨rfl, ht, rfl⟩ := BindDenotes_unique hd hdb
  have hn := C36_unique w hh a c h
  have : b = b' := List.inj_on_of_nodup_map hn hb hb' (by rw [← ht, ht'])
  subst this
  exact ho

theorem loadFiles_lists_only {w : World} : ∀ {files : List Str} {acc acc' : Partial × Sources}, loadFiles w files acc = .ok acc' →
    (∀ s ∈ acc'.1.bind.getD [], s ∈ acc.1.bind.getD [] ∨ ∃ f ∈ files, ∃ p, w.readConfig f = some p ∧ ∃ l, p.bind = some l ∧ s ∈ l) ∧
    (∀ s ∈ acc'.1.mask.getD [], s ∈ acc.1.mask.getD [] ∨ ∃ f ∈ files, ∃ p, w.readConfig f = some p ∧ ∃ l, p.mask = some l ∧ s ∈ l)
  | [], acc, acc', h => by cases h; simp
  | f :: r, acc, acc', h => by
    unfold loadFiles at h
    split at h
    · cases h
    · next o ho =>
      obtain ⟨h1, h2⟩ := loadFiles_lists_only h
      have e1 : (mergeConfig acc o f).1.bind = (match o.bind with | some l => extend acc.1.bind l | none => acc.1.bind) := by
        simp only [mergeConfig]
        cases o.bind <;> simp [addBind]
      have e2 : (mergeConfig acc o f).1.mask = (match o.mask with | some l => extend acc.1.mask l | none => acc.1.mask) := by
        simp only [mergeConfig]
        cases o.mask <;> simp [addMask]
      refine ⟨?_, ?_⟩
      · intro s hs
        rcases h1 s hs with h | ⟨g, hg, p, hp, l, hl, hsl⟩
        · rw [e1] at h
          cases hb : o.bind with
          | none => rw [hb] at h; exact .inl h
          | some l =>
            rw [hb] at h
            rcases mem_extend.1 h with h | h
            · exact .inl h
            · exact .inr ⟨f, by simp, o, ho, l, hb, h⟩
        · exact .inr ⟨g, by simp [hg], p, hp, l, hl, hsl⟩
      · intro s hs
        rcases h2 s hs with h | ⟨g, hg, p, hp, l, hl, hsl⟩
        · rw [e2] at h
          cases hb : o.mask with
          | none => rw [hb] at h; exact .inl h
          | some l =>
            rw [hb] at h
            rcases mem_extend.1 h with h | h
            · exact .inl h
            · exact .inr ⟨f, by simp, o, ho, l, hb, h⟩
        · exact .inr ⟨g, by simp [hg], p, hp, l, hl, hsl⟩

/-- **C36**: nothing else is bound: every bind in effect is what a default bind (unless they are disabled) or a requested bind denotes, or a requested mask. -/
theorem C36_only_requested (w : World) (hw : w.fs.WF) (hh : ∀ l, (w.hashOrder l).Perm l) (a : Args) (c : Config) (h : resolveConfig w a = .ok c) (b : BindMount)
    (hb : b ∈ c.bindMounts) :
    (c.noDefaultBinds = false ∧ ∃ s ∈ defaultBinds w c.net, Spec.BindDenotes w s b.source b.target b.opt) ∨
    (∃ s, Spec.AsksBind w a c.configFiles s ∧ Spec.BindDenotes w s b.source b.target b.opt) ∨
    (∃ m, Spec.AsksMask w a c.configFiles m ∧ b.opt = .mask ∧ b.target = Spec.targetPath w m) := by
  obtain ⟨p0, s0, acc1, acc2, hl, he, hc, hf, _⟩ := resolve_stages h
  obtain ⟨_, _, _, _, _, _, em, eb, _⟩ := applyEnv_ok he
  obtain ⟨_, _, _, _, _, _, cm, cb⟩ := applyCli_ok hc
  obtain ⟨_, _, _, _, _, _, ⟨bs, m, hp, hd, hbm⟩, _⟩ := finish_ok hf
  obtain ⟨_, hpar⟩ := parseBinds_ok hp
  obtain ⟨_, _, h3, _⟩ := dedupBinds_ok hd (by simp)
  rw [hbm] at hb
  have hbs : b ∈ bs := by
    rcases h3 b ((hh m).mem_iff.1 hb) with h | h
    · simp at h
    · exact h
  obtain ⟨s, hs, hps⟩ := hpar b hbs
  have hden := ((C37_syntax w hw s b).1 hps).1
  have hfiles : (∀ s ∈ p0.bind.getD [], ∃ f ∈ c.configFiles, ∃ p, w.readConfig f = some p ∧ ∃ l, p.bind = some l ∧ s ∈ l) ∧
      (∀ s ∈ p0.mask.getD [], ∃ f ∈ c.configFiles, ∃ p, w.readConfig f = some p ∧ ∃ l, p.mask = some l ∧ s ∈ l) := by
    unfold loadPartial at hl
    split at hl
    · cases hl
    · next ps hps =>
      simp only at hl
      split at hl
      · cases hl
      · next p' s' hl2 =>
        simp only [Except.ok.injEq, Prod.mk.injEq] at hl
        obtain ⟨rfl, rfl, rfl⟩ := hl
        obtain ⟨k1, k2⟩ := loadFiles_lists_only hl2
        exact ⟨fun s hs => by simpa using k1 s hs, fun s hs => by simpa using k2 s hs⟩
  have hlist : ∀ (o : Option Str) s, s ∈ (listOf o).getD [] → ∃ v, o = some v ∧ Spec.ListItem v s := by
    intro o s hs
    cases o with
    | none => simp [listOf] at hs
    | some v =>
      refine ⟨v, rfl, (mem_listVar v s).1 ?_⟩
      unfold listOf at hs
      rw [Option.map_some, Option.filter_some] at hs
      split at hs
      · exact hs
      · simp at hs
  have hmaskarg : ∀ x, s = maskArg x → Spec.AsksMask w a c.configFiles x → ∃ m, Spec.AsksMask w a c.configFiles m ∧ b.opt = .mask ∧ b.target = Spec.targetPath w m :=
    fun x hx ha => ⟨x, ha, C38_mask w hw x s (.inl hx) b hps⟩
  unfold bindRequests at hs
  simp only [List.mem_append] at hs
  rcases hs with (hs | hs) | hs
  · split at hs
    · simp at hs
    · next hnd => exact .inl ⟨by simpa using hnd, s, hs, hden⟩
  · right
    have hmap : ∀ o : Option (List Str), (o.map (·.map maskArg)).getD [] = (o.getD []).map maskArg := by intro o; cases o <;> rfl
    have hcases := (bind_members he hc s).1 hs
    rw [hmap, hmap] at hcases
    rcases hcases with h | h | h | h | h
    · obtain ⟨f, hf', p, hp', l, hl', hsl⟩ := hfiles.1 s h
      exact .inl ⟨s, .file f p l s hf' hp' hl' hsl, hden⟩
    · obtain ⟨v, hv, hsv⟩ := hlist _ s h
      exact .inl ⟨s, .env v s hv hsv, hden⟩
    · obtain ⟨x, hx, rfl⟩ := List.mem_map.1 h
      obtain ⟨v, hv, hsv⟩ := hlist _ x hx
      exact .inr (hmaskarg x rfl (.env v x hv hsv))
    · cases hab : a.bind with
      | none => rw [hab] at h; simp at h
      | some l => rw [hab] at h; exact .inl ⟨s, .cli l s hab h, hden⟩
    · obtain ⟨x, hx, rfl⟩ := List.mem_map.1 h
      cases hab : a.mask with
      | none => rw [hab] at hx; simp at hx
      | some l => rw [hab] at hx; exact .inr (hmaskarg x rfl (.cli l x hab hx))
  · right; right
    rw [cm, em] at hs
    obtain ⟨x, hx, rfl⟩ := List.mem_map.1 hs
    obtain ⟨f, hf', p, hp', l, hl', hsl⟩ := hfiles.2 x hx
    exact ⟨x, .file f p l x hf' hp' hl' hsl, C38_mask w hw x _ (.inr rfl) b hps⟩

/-- Non-vacuity: four layers, a bind and a mask (`exCfg_ok`); conflicts. -/
example : Spec.AsksBind exCfgWorld { logLevel := some .trace } exCfg.configFiles (str "/tmp::ro") ∧ Spec.AsksMask exCfgWorld { logLevel := some .trace } exCfg.configFiles (str "~/data") :=
  ⟨.file (str "/home/u/proj/.sandbox.conf") { name := some (str "p2"), bind := some [str "/tmp::ro"] } _ _ (by decide +kernel) (by decide +kernel) rfl (by decide),
    .file (str "/home/u/proj/.sandbox.toml") { name := some (str "p1"), mask := some [str "~/data"] } _ _ (by decide +kernel) (by decide +kernel) rfl (by decide)⟩

example : resolveConfig exCfgWorld { bind := some [str "/tmp"] } = .error .bindConflict := by decide +kernel
example : resolveConfig exCfgWorld { bind := some [str "~/data"] } = .error .bindConflict := by decide +kernel

/-- **C36 refuted** for places instead of target texts: the non-existing relative target `foo` and the absolute one `/foo` are the same place in the sandbox, but the
conflict is not noticed; what a process sees there depends on the order of the hash map. -/
theorem C36_refuted_relative : (resolveConfig exCfgWorld { noConfig := true, noDefaultBinds := true, bind := some [str "/etc:foo", str "/tmp:/foo:ro"] }).toOption.map
      (·.bindMounts.map (fun b => (finalTarget b, b.source, b.opt))) = some [([str "foo"], [str "etc"], .rw), ([str "foo"], [str "tmp"], .ro)] := by decide +kernel

/-- **C36** for places: if all targets are absolute and written without `..`, no two binds end up in the same place. -/
theorem C36_places_partial (w : World) (hh : ∀ l, (w.hashOrder l).Perm l) (a : Args) (c : Config) (h : resolveConfig w a = .ok c)
    (hab : ∀ b ∈ c.bindMounts, b.target.abs = true ∧ ['.'] ∉ b.target.comps ∧ ['.', '.'] ∉ b.target.comps) : (c.bindMounts.map finalTarget).Nodup := by
  have hn := C36_unique w hh a c h
  rw [List.nodup_map_iff_inj_on (List.Nodup.of_map _ hn)]
  intro x hx y hy hxy
  refine List.inj_on_of_nodup_map hn hx hy ?_
  have key : ∀ b ∈ c.bindMounts, finalTarget b = b.target.comps := by
    intro b hb
    unfold finalTarget
    rw [List.filter_eq_self]
    intro n hn
    simp only [ne_eq, decide_not, Bool.not_eq_eq_eq_not, Bool.not_true, decide_eq_false_iff_not]
    rintro rfl
    exact (hab b hb).2.1 hn
  rw [key x hx, key y hy] at hxy
  have h1 := (hab x hx).1
  have h2 := (hab y hy).1
  cases hx' : x.target; cases hy' : y.target
  simp_all

/-! ### C40 -/

/-- **C40**: the host network namespace is shared exactly if the command line, else the environment, else the most specific config file that says anything about it,
asks for `host`; without any request the sandbox has its own network namespace. -/
theorem C40_network (w : World) (a : Args) (c : Config) (h : resolveConfig w a = .ok c) :
    Namespace.net ∉ newNamespaces c.net ↔
      (a.net = some .host ∨ a.net = none ∧ ((Spec.setVar w.vars.net).bind Spec.netVar = some .host ∨ (Spec.setVar w.vars.net).bind Spec.netVar = none ∧
        ∃ f, Spec.fileValue w c.configFiles (·.net) = some (f, .host))) := by
  have he := C34_net w a c h
  have : Namespace.net ∉ newNamespaces c.net ↔ c.net = .host := by cases c.net <;> decide
  rw [this]
  unfold Spec.Effective at he
  revert he
  generalize (Spec.setVar w.vars.net).bind Spec.netVar = ev
  generalize Spec.fileValue w c.configFiles (·.net) = fv
  cases a.net with
  | some x => simp +contextual
  | none =>
    cases ev with
    | some x => simp +contextual
    | none =>
      cases fv with
      | some x => obtain ⟨f, x⟩ := x; simp +contextual
      | none => simp +contextual

/-- The other namespaces are never shared with the host. -/
theorem C40_other_namespaces (net : Net) (n : Namespace) (h : n ≠ .net) : n ∈ newNamespaces net := by
  cases net <;> cases n <;> revert h <;> decide

/-- **C40**: without host network the default binds are at most `/dev/fuse` and the three tool directories in the home directory: no D-Bus or systemd socket. -/
theorem C40_default_binds (w : World) : ∀ s ∈ defaultBinds w .none,
    s = str "/dev/fuse" ∨ ∃ n ∈ [str ".claude", str ".aider", str ".cursor"], s = (w.home.join (parsePath n)).text := by
  intro s hs
  unfold defaultBinds at hs
  simp only [reduceCtorEq, if_false, List.append_nil, List.mem_append, List.mem_flatMap] at hs
  rcases hs with hs | ⟨n, hn, hs⟩
  · left
    split at hs <;> simp_all
  · right
    split at hs
    · exact ⟨n, hn, by simpa using hs⟩
    · simp at hs

/-- **C40**: the value of `SANDBOX_NET` asks for the host network only if it reads `host` (in any case). -/
theorem C40_env (t : Str) : parseNet t = some .host ↔ t.map Char.toLower = str "host" := by
  rw [← show lower t = t.map Char.toLower from by unfold lower; rw [show lowerChar = Char.toLower from funext lowerChar_spec]]
  unfold parseNet
  constructor
  · intro h
    simp only at h
    split at h
    · cases h
    · split at h
      · assumption
      · cases h
  · intro h
    simp only [h]
    rfl

/-- Non-vacuity: `exCfg` has no host network although `/etc/sandbox.toml` asks for it, because `~/.config` says otherwise; and with `--net=host` D-Bus is bound. -/
example : Namespace.net ∈ newNamespaces exCfg.net := by decide +kernel
example : (resolveConfig exCfgWorld { net := some .host }).toOption.map (fun c => (newNamespaces c.net, c.bindMounts.map (·.source))) =
    some ([.mnt, .pid, .ipc, .uts, .cgroup], [[str "dev", str "fuse"], [str "run", str "dbus"], [str "run", str "systemd"], [str "etc"], [str "tmp"],
      [str "home", str "u", str "data"]]) := by decide +kernel

end SB
