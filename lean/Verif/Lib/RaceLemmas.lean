import Verif.Model.Race
import Verif.Lib.Effect

/-! Operations of accept do not see what others do elsewhere (proof machinery). -/

namespace SB

/-! ### system calls -/

theorem walk_congr {a b : FS} (ol ol') (todo : Path) : ∀ (cur : Path), NormalPath todo →
    (∀ r, r <+: todo → a.get (cur ++ r) = b.get (cur ++ r)) → (∀ r, r <+: todo → r ≠ [] → ∀ n, a.get (cur ++ r) = some n → n.isLnk = false) →
    a.walk ol cur todo = b.walk ol' cur todo := by
  induction todo with
  | nil => intro cur _ _ _; simp only [FS.walk]
  | cons x t ih =>
    intro cur hn hg hl
    have hx := hn x (by simp)
    simp only [FS.walk]
    have h0 := hg [] List.nil_prefix
    rw [List.append_nil] at h0
    have h1 := hg [x] (by simp)
    rw [← h0, ← h1]
    cases a.get cur with
    | none => rfl
    | some d =>
      simp only
      split
      · rw [if_neg hx.2.2.2, if_neg hx.2.2.2]
        cases hm : a.get (cur ++ [x]) with
        | none => rfl
        | some m =>
          have hml := hl [x] (by simp) (by simp) m hm
          have key := ih (cur ++ [x]) (fun n hn' => hn n (by simp [hn'])) (fun r hr => by simpa using hg (x :: r) (by simpa using hr))
            (fun r hr hr0 n hg' => hl (x :: r) (by simpa using hr) (by simp) n (by simpa using hg'))
          unfold Node.isLnk at hml
          cases hk : m.kind <;> simp only [hk, Kind.isLnk] at hml ⊢ <;> first | exact key | cases hml
      · rfl

theorem canon_congr {a b : FS} {p : Path} (hN : NormalPath p) (hl : a.NoLinkAbove p) (hg : ∀ y, Below y p → a.get y = b.get y) : a.canon p = b.canon p := by
  unfold FS.canon
  rcases List.eq_nil_or_concat p with rfl | ⟨d, l, rfl⟩
  · rfl
  · rw [List.concat_eq_append] at *
    have hbel : ∀ r, r <+: d → Below r (d ++ [l]) := fun r hr => below_of_prefix_below hr ⟨[l], by simp, rfl⟩
    simp only [List.getLast?_append_of_ne_nil, List.getLast?_singleton, ne_eq, List.cons_ne_self, not_false_eq_true, List.dropLast_concat]
    have hr : a.realpath d = b.realpath d :=
      walk_congr (a.resolveN 39) (b.resolveN 39) d [] hN.of_append_left (fun r hr => by simpa using hg r (hbel r hr)) (fun r hr _ n hn => hl r (hbel r hr) n (by simpa using hn))
    rw [← hr]
    cases hx : a.realpath d with
    | error e => rfl
    | ok c =>
      have : c = d := by
        have := FS.walk_nolink a (a.resolveN 39) d [] c hN.of_append_left (fun r hr _ n hn => hl r (hbel r hr) n (by simpa using hn)) hx
        simpa using this
      subst this
      simp only
      rw [FS.isDirAt_congr (hg c (hbel c (List.prefix_refl _)))]

/-- `stat` of a path that is no link. -/
theorem stat_congr {a b : FS} {p : Path} (hN : NormalPath p) (hl : a.NoLinkAbove p) (hp : ¬ a.linkAt p) (hg : ∀ y, y <+: p → a.get y = b.get y) : a.stat p = b.stat p := by
  have hno : ∀ r, r <+: p → r ≠ [] → ∀ n, a.get ([] ++ r) = some n → n.isLnk = false := by
    intro r hr _ n hn
    rw [List.nil_append] at hn
    by_cases h : r = p
    · subst h
      by_contra hx
      exact hp ⟨n, hn, by simpa using hx⟩
    · exact hl r (below_iff.2 ⟨hr, h⟩) n hn
  unfold FS.stat
  have hr : a.realpath p = b.realpath p := walk_congr (a.resolveN 39) (b.resolveN 39) p [] hN (fun r hr => by simpa using hg r hr) hno
  rw [← hr]
  cases hx : a.realpath p with
  | error e => rfl
  | ok c =>
    have : c = p := by
      have := FS.walk_nolink a (a.resolveN 39) p [] c hN hno hx
      simpa using this
    subst this
    simp only
    rw [hg c (List.prefix_refl _)]

/-- The two file systems are the same except at the paths `P`. -/
def Off (P : Path → Prop) (a b : FS) : Prop := ∀ q, ¬ P q → a.get q = b.get q

theorem Off.set {P : Path → Prop} {a b : FS} (h : Off P a b) (p : Path) (n : Node) : Off P (a.set p n) (b.set p n) := by
  intro q hq; rw [FS.get_set, FS.get_set, h q hq]

theorem Off.del {P : Path → Prop} {a b : FS} (h : Off P a b) (p : Path) : Off P (a.del p) (b.del p) := by
  intro q hq; rw [FS.get_del, FS.get_del, h q hq]

/-- The calls give the same answer, and file systems that are the same except at `P`. -/
def ResOff (P : Path → Prop) (x y : Except Errno FS) : Prop := (∃ e, x = .error e ∧ y = .error e) ∨ ∃ a b, x = .ok a ∧ y = .ok b ∧ Off P a b

section
variable {P : Path → Prop} {a b : FS} {p : Path}

/-- What is read for an operation at `p`. -/
structure Clean (P : Path → Prop) (a b : FS) (p : Path) : Prop where
  off : Off P a b
  wf : a.WF
  normal : NormalPath p
  nolink : a.NoLinkAbove p
  far : ∀ w, P w → ¬ w <+: p

theorem Clean.get (h : Clean P a b p) {q : Path} (hq : q <+: p) : a.get q = b.get q := h.off q (fun hp => h.far q hp hq)
theorem Clean.canon (h : Clean P a b p) : a.canon p = b.canon p := canon_congr h.normal h.nolink (fun _ hy => h.get hy.prefix)
theorem Clean.dev (h : Clean P a b p) {q : Path} (hq : q <+: p) : a.devOf q = b.devOf q := by unfold FS.devOf; rw [h.get hq]
theorem Clean.mount (h : Clean P a b p) : a.mountPoint p = b.mountPoint p := by
  unfold FS.mountPoint; rw [h.dev (List.prefix_refl _), h.dev (List.dropLast_prefix _)]

theorem hasChild_off (h : Off P a b) (hb : ∀ w, P w → ¬ p <+: w) : a.hasChild p = b.hasChild p := by
  rw [Bool.eq_iff_iff, FS.hasChild_iff, FS.hasChild_iff]
  constructor <;> rintro ⟨q, n, hq, hn⟩
  · exact ⟨q, n, hq, by rw [← h q (fun hp => hb q hp hq.prefix)]; exact hn⟩
  · exact ⟨q, n, hq, by rw [h q (fun hp => hb q hp hq.prefix)]; exact hn⟩

theorem unlink_off (h : Clean P a b p) : ResOff P (a.unlink p) (b.unlink p) := by
  unfold FS.unlink
  rw [← h.canon]
  cases hc : a.canon p with
  | error e => exact Or.inl ⟨e, rfl, rfl⟩
  | ok c =>
    obtain ⟨rfl, _⟩ := FS.canon_ok_chain h.wf h.normal h.nolink hc
    simp only
    rw [← h.get (List.prefix_refl _)]
    cases a.get c with
    | none => exact Or.inl ⟨_, rfl, rfl⟩
    | some n =>
      simp only
      split
      · exact Or.inl ⟨_, rfl, rfl⟩
      · exact Or.inr ⟨_, _, rfl, rfl, h.off.del c⟩

theorem rmdir_off (h : Clean P a b p) (hb : ∀ w, P w → ¬ p <+: w) : ResOff P (a.rmdir p) (b.rmdir p) := by
  unfold FS.rmdir
  rw [← h.canon]
  cases hc : a.canon p with
  | error e => exact Or.inl ⟨e, rfl, rfl⟩
  | ok c =>
    obtain ⟨rfl, _⟩ := FS.canon_ok_chain h.wf h.normal h.nolink hc
    simp only
    rw [← h.get (List.prefix_refl _), ← h.mount, ← hasChild_off h.off hb]
    cases a.get c with
    | none => exact Or.inl ⟨_, rfl, rfl⟩
    | some n =>
      simp only
      split
      · exact Or.inl ⟨_, rfl, rfl⟩
      · split
        · exact Or.inl ⟨_, rfl, rfl⟩
        · split
          · exact Or.inl ⟨_, rfl, rfl⟩
          · split
            · exact Or.inl ⟨_, rfl, rfl⟩
            · exact Or.inr ⟨_, _, rfl, rfl, h.off.del c⟩

theorem mkdir_off (h : Clean P a b p) : ResOff P (a.mkdir p) (b.mkdir p) := by
  unfold FS.mkdir
  rw [← h.canon]
  cases hc : a.canon p with
  | error e => exact Or.inl ⟨e, rfl, rfl⟩
  | ok c =>
    obtain ⟨rfl, _⟩ := FS.canon_ok_chain h.wf h.normal h.nolink hc
    simp only
    rw [← h.get (List.prefix_refl _), ← h.dev (List.dropLast_prefix _)]
    cases a.get c with
    | some n => exact Or.inl ⟨_, rfl, rfl⟩
    | none => exact Or.inr ⟨_, _, rfl, rfl, h.off.set _ _⟩

theorem symlink_off (h : Clean P a b p) (t : Str) : ResOff P (a.symlink t p) (b.symlink t p) := by
  unfold FS.symlink
  rw [← h.canon]
  cases hc : a.canon p with
  | error e => exact Or.inl ⟨e, rfl, rfl⟩
  | ok c =>
    obtain ⟨rfl, _⟩ := FS.canon_ok_chain h.wf h.normal h.nolink hc
    simp only
    rw [← h.get (List.prefix_refl _), ← h.dev (List.dropLast_prefix _)]
    cases a.get c with
    | some n => exact Or.inl ⟨_, rfl, rfl⟩
    | none => exact Or.inr ⟨_, _, rfl, rfl, h.off.set _ _⟩

theorem writeFile_off (h : Clean P a b p) (d : Str) (m : Nat) : ResOff P (a.writeFile p d m) (b.writeFile p d m) := by
  unfold FS.writeFile
  rw [← h.canon]
  cases hc : a.canon p with
  | error e => exact Or.inl ⟨e, rfl, rfl⟩
  | ok c =>
    obtain ⟨rfl, _⟩ := FS.canon_ok_chain h.wf h.normal h.nolink hc
    simp only
    rw [← h.get (List.prefix_refl _), ← h.dev (List.dropLast_prefix _)]
    cases a.get c with
    | none => exact Or.inr ⟨_, _, rfl, rfl, h.off.set _ _⟩
    | some n =>
      simp only
      cases n.kind
      case reg => exact Or.inr ⟨_, _, rfl, rfl, h.off.set _ _⟩
      all_goals exact Or.inl ⟨_, rfl, rfl⟩

theorem chown_off (h : Clean P a b p) (u g : Nat) : ResOff P (a.chown p u g) (b.chown p u g) := by
  unfold FS.chown
  rw [← h.canon]
  cases hc : a.canon p with
  | error e => exact Or.inl ⟨e, rfl, rfl⟩
  | ok c =>
    obtain ⟨rfl, _⟩ := FS.canon_ok_chain h.wf h.normal h.nolink hc
    simp only
    rw [← h.get (List.prefix_refl _)]
    cases a.get c with
    | none => exact Or.inl ⟨_, rfl, rfl⟩
    | some n => exact Or.inr ⟨_, _, rfl, rfl, h.off.set _ _⟩

theorem chmod_off (h : Clean P a b p) (m : Nat) : ResOff P (a.chmod p m) (b.chmod p m) := by
  unfold FS.chmod
  rw [← h.canon]
  cases hc : a.canon p with
  | error e => exact Or.inl ⟨e, rfl, rfl⟩
  | ok c =>
    obtain ⟨rfl, _⟩ := FS.canon_ok_chain h.wf h.normal h.nolink hc
    simp only
    rw [← h.get (List.prefix_refl _)]
    cases a.get c with
    | none => exact Or.inl ⟨_, rfl, rfl⟩
    | some n =>
      simp only
      split
      · exact Or.inl ⟨_, rfl, rfl⟩
      · exact Or.inr ⟨_, _, rfl, rfl, h.off.set _ _⟩

theorem lstat_off (h : Clean P a b p) : a.lstat p = b.lstat p := by
  unfold FS.lstat
  rw [← h.canon]
  cases hc : a.canon p with
  | error e => rfl
  | ok c =>
    obtain ⟨rfl, _⟩ := FS.canon_ok_chain h.wf h.normal h.nolink hc
    simp only
    rw [← h.get (List.prefix_refl _)]

theorem Off.move {q : Path} (h : Off P a b) (hab : ¬ p <+: q) (hba : ¬ q <+: p) (hp : ∀ w, P w → ¬ p <+: w) : Off P (a.moveTree p q) (b.moveTree p q) := by
  intro r hr
  rw [FS.get_moveTree a hab hba, FS.get_moveTree b hab hba]
  split
  · exact h _ (fun hw => hp _ hw (List.prefix_append _ _))
  · split
    · rfl
    · exact h r hr

theorem rename_off {q : Path} (h : Clean P a b p) (h' : Clean P a b q) (hb : ∀ w, P w → ¬ p <+: w) (hb' : ∀ w, P w → ¬ q <+: w) : ResOff P (a.rename p q) (b.rename p q) := by
  unfold FS.rename
  rw [← h.canon, ← h'.canon]
  cases hc : a.canon p with
  | error e => exact Or.inl ⟨e, rfl, rfl⟩
  | ok c =>
    obtain ⟨rfl, _⟩ := FS.canon_ok_chain h.wf h.normal h.nolink hc
    cases hd : a.canon q with
    | error e => exact Or.inl ⟨e, rfl, rfl⟩
    | ok d =>
      obtain ⟨rfl, _⟩ := FS.canon_ok_chain h'.wf h'.normal h'.nolink hd
      simp only
      rw [← h.get (List.prefix_refl _), ← h'.get (List.prefix_refl _), ← h.mount, ← h'.mount, ← hasChild_off h'.off hb', ← h.dev (List.dropLast_prefix _), ← h'.dev (List.dropLast_prefix _)]
      cases a.get c with
      | none => exact Or.inl ⟨_, rfl, rfl⟩
      | some n =>
        simp only
        by_cases h1 : c = d
        · simp only [h1, if_true]; exact Or.inr ⟨_, _, rfl, rfl, h.off⟩
        rw [if_neg h1, if_neg h1]
        by_cases h2 : c = [] ∨ d = []
        · rw [if_pos h2, if_pos h2]; exact Or.inl ⟨_, rfl, rfl⟩
        rw [if_neg h2, if_neg h2]
        by_cases h3 : a.devOf c.dropLast ≠ a.devOf d.dropLast
        · rw [if_pos h3, if_pos h3]; exact Or.inl ⟨_, rfl, rfl⟩
        rw [if_neg h3, if_neg h3]
        by_cases h4 : c.isPrefixOf d = true
        · rw [if_pos h4, if_pos h4]; exact Or.inl ⟨_, rfl, rfl⟩
        rw [if_neg h4, if_neg h4]
        by_cases h5 : d.isPrefixOf c = true
        · rw [if_pos h5, if_pos h5]; exact Or.inl ⟨_, rfl, rfl⟩
        rw [if_neg h5, if_neg h5]
        rw [List.isPrefixOf_iff_prefix] at h4 h5
        have hm := Off.move h.off h4 h5 hb
        generalize a.moveTree c d = x at hm
        generalize b.moveTree c d = y at hm
        by_cases h6 : (n.isDir && a.mountPoint c) = true
        · rw [if_pos h6, if_pos h6]; exact Or.inl ⟨_, rfl, rfl⟩
        rw [if_neg h6, if_neg h6]
        cases a.get d with
        | none => exact Or.inr ⟨_, _, rfl, rfl, hm⟩
        | some m =>
          generalize a.mountPoint d = m1
          generalize a.hasChild d = m2
          cases hn : n.isDir <;> cases hm' : m.isDir <;> cases m1 <;> cases m2
          all_goals first | exact Or.inl ⟨_, rfl, rfl⟩ | exact Or.inr ⟨_, _, rfl, rfl, hm⟩ | (simp only [hm', Bool.false_eq_true, if_true, if_false]; first | exact Or.inl ⟨_, rfl, rfl⟩ | exact Or.inr ⟨_, _, rfl, rfl, hm⟩)

end

/-! ### operations -/

/-- The operation depends on (or changes) everything below its paths, too. -/
def Op.deep (op : Op) (w : Path) : Prop :=
  match op with
  | .rmdir p => p <+: w
  | .mv a b => a <+: w ∨ b <+: w
  | _ => False

/-- The operation, done in `a`, is not concerned with the paths `P`. -/
structure Apart (P : Path → Prop) (op : Op) (a : FS) : Prop where
  plain : ∀ x ∈ op.paths, NormalPath x ∧ a.NoLinkAbove x
  far : ∀ x ∈ op.paths, ∀ w, P w → ¬ w <+: x
  deep : ∀ w, P w → ¬ op.deep w
  link : ∀ p, op = .mkdirIfNeeded p → ¬ a.linkAt p

theorem liftLower_off {P : Path → Prop} {a b u : FS} {x y : Except Errno FS} (hab : Off P a b) (h : ResOff P x y) :
    Off P (liftLower ⟨a, u⟩ x).1.lower (liftLower ⟨b, u⟩ y).1.lower ∧ (liftLower ⟨a, u⟩ x).1.upper = (liftLower ⟨b, u⟩ y).1.upper ∧ (liftLower ⟨a, u⟩ x).2 = (liftLower ⟨b, u⟩ y).2 := by
  rcases h with ⟨e, rfl, rfl⟩ | ⟨a', b', rfl, rfl, h⟩
  · exact ⟨hab, rfl, rfl⟩
  · exact ⟨h, rfl, rfl⟩

/-- The operation gives the same answer in both. -/
theorem exec_off {P : Path → Prop} {op : Op} {a b u : FS} (hab : Off P a b) (hw : a.WF) (hap : Apart P op a) :
    Off P (exec op ⟨a, u⟩).1.lower (exec op ⟨b, u⟩).1.lower ∧ (exec op ⟨a, u⟩).1.upper = (exec op ⟨b, u⟩).1.upper ∧ (exec op ⟨a, u⟩).2 = (exec op ⟨b, u⟩).2 := by
  have clean : ∀ x ∈ op.paths, Clean P a b x := fun x hx => ⟨hab, hw, (hap.plain x hx).1, (hap.plain x hx).2, hap.far x hx⟩
  cases op with
  | rm p => exact liftLower_off hab (unlink_off (clean p (by simp [Op.paths])))
  | rmdir p => exact liftLower_off hab (rmdir_off (clean p (by simp [Op.paths])) (fun w hw' => by simpa [Op.deep] using hap.deep w hw'))
  | mv p q =>
    exact liftLower_off hab (rename_off (clean p (by simp [Op.paths])) (clean q (by simp [Op.paths])) (fun w hw' h => hap.deep w hw' (Or.inl h)) (fun w hw' h => hap.deep w hw' (Or.inr h)))
  | chown p x y => exact liftLower_off hab (chown_off (clean p (by simp [Op.paths])) x y)
  | chmod p m => exact liftLower_off hab (chmod_off (clean p (by simp [Op.paths])) m)
  | cp s t =>
    simp only [exec]
    cases u.get s with
    | none => exact ⟨hab, rfl, rfl⟩
    | some n =>
      simp only
      cases n.kind
      case reg => exact liftLower_off hab (writeFile_off (clean t (by simp [Op.paths])) _ _)
      all_goals exact ⟨hab, rfl, rfl⟩
  | rmIfExists p =>
    have hc := clean p (by simp [Op.paths])
    simp only [exec]
    rw [← lstat_off hc]
    split
    · exact liftLower_off hab (unlink_off hc)
    · exact ⟨hab, rfl, rfl⟩
    · exact ⟨hab, rfl, rfl⟩
  | ln s p =>
    simp only [exec]
    cases u.get s with
    | none => exact ⟨hab, rfl, rfl⟩
    | some n =>
      simp only
      cases n.kind
      case lnk => exact liftLower_off hab (symlink_off (clean p (by simp [Op.paths])) _)
      all_goals exact ⟨hab, rfl, rfl⟩
  | mkdirIfNeeded p =>
    have hc := clean p (by simp [Op.paths])
    have hs : a.pisDir p = b.pisDir p := by
      unfold FS.pisDir
      rw [stat_congr hc.normal hc.nolink (hap.link p rfl) (fun y hy => hc.get hy)]
    simp only [exec]
    rw [← hs]
    split
    · exact ⟨hab, rfl, rfl⟩
    · exact liftLower_off hab (mkdir_off hc)
  | clean p =>
    simp only [exec]
    cases u.get p with
    | none => exact ⟨hab, rfl, rfl⟩
    | some n =>
      simp only
      split
      · cases rmdirRecursive u p with
        | mk x e => cases e <;> exact ⟨hab, rfl, rfl⟩
      · cases u.unlink p <;> exact ⟨hab, rfl, rfl⟩

theorem Apart.other {P : Path → Prop} {op : Op} {a b : FS} (h : Apart P op a) (hab : Off P a b) : ∀ x ∈ op.paths, NormalPath x ∧ b.NoLinkAbove x := by
  intro x hx
  refine ⟨(h.plain x hx).1, fun y hy n hn => (h.plain x hx).2 y hy n ?_⟩
  rw [hab y (fun hp => h.far x hx y hp hy.prefix)]
  exact hn

theorem Apart.region {P : Path → Prop} {op : Op} {a : FS} (h : Apart P op a) {q : Path} (hq : P q) : ¬ op.region q := by
  intro hr
  cases op with
  | mv a b => exact h.deep q hq hr
  | clean p => exact hr
  | _ => exact h.far q hr q hq (List.prefix_refl _)

/-! ### runs -/

/-- No operation of the run is concerned with `P`. -/
def ApartRun (P : Path → Prop) : List Op → State → Prop
  | [], _ => True
  | op :: ops, st => Apart P op st.lower ∧ ∀ st1, exec op st = (st1, none) → ApartRun P ops st1

theorem apartRun_append {P : Path → Prop} {x y : List Op} {st : State} (h : ApartRun P x st) (h' : ∀ st1, run x st = (st1, none) → ApartRun P y st1) : ApartRun P (x ++ y) st := by
  induction x generalizing st with
  | nil => exact h' st rfl
  | cons op ops ih =>
    refine ⟨h.1, fun st1 hx => ih (h.2 st1 hx) (fun st2 h2 => h' st2 ?_)⟩
    simp only [run, hx]
    exact h2

theorem apartRun_plain {P : Path → Prop} {all : List Op} {G : FS} (hp : PlainOps all G) (hfar : ∀ op ∈ all, ∀ x ∈ op.paths, ∀ w, P w → ¬ w <+: x)
    (hdeep : ∀ op ∈ all, ∀ w, P w → ¬ op.deep w) (hlink : ∀ p, Op.mkdirIfNeeded p ∈ all → ¬ MayLink all G p) :
    ∀ {ops : List Op} {st : State}, (∀ op ∈ ops, op ∈ all) → st.lower.WF → (∀ q, st.lower.linkAt q → MayLink all G q) → ApartRun P ops st := by
  intro ops
  induction ops with
  | nil => intros; trivial
  | cons op ops ih =>
    intro st hsub hw hl
    have hop := hsub op List.mem_cons_self
    have hpl := plain_now hl hp hop
    refine ⟨⟨hpl, hfar op hop, hdeep op hop, fun p he h => hlink p (he ▸ hop) (hl p h)⟩, fun st1 hx => ?_⟩
    have := exec_step (op := op) hw hpl
    rw [hx] at this
    exact ih (fun o ho => hsub o (List.mem_cons_of_mem _ ho)) this.wf (mayLink_step hop this hl)

theorem apartRun_clean {P : Path → Prop} : ∀ {ops : List Op} {st : State}, (∀ op ∈ ops, op.isClean = true) → ApartRun P ops st := by
  intro ops
  induction ops with
  | nil => intros; trivial
  | cons op ops ih =>
    intro st h
    have hc := h op List.mem_cons_self
    refine ⟨?_, fun st1 _ => ih (fun o ho => h o (List.mem_cons_of_mem _ ho))⟩
    cases op <;> simp [Op.isClean] at hc
    exact ⟨by simp [Op.paths], by simp [Op.paths], fun _ _ => id, fun p he => by cases he⟩

/-! ### writes of others -/

theorem write_get_other {fs : FS} {w : Write} {q : Path} (h : w.path ≠ q) : (write fs w).get q = fs.get q := by
  unfold write
  cases w.node with
  | some n => simp only; rw [FS.get_set, if_neg h]
  | none => simp only; rw [FS.get_del, if_neg h]

theorem write_get_self (fs : FS) (w : Write) : (write fs w).get w.path = w.node := by
  unfold write
  cases w.node with
  | some n => simp only; rw [FS.get_set, if_pos rfl]
  | none => simp only; rw [FS.get_del, if_pos rfl]

theorem writes_congr (ws : List Write) {q : Path} : ∀ {a b : FS}, a.get q = b.get q → (ws.foldl write a).get q = (ws.foldl write b).get q := by
  induction ws with
  | nil => intro a b h; exact h
  | cons w ws ih =>
    intro a b h
    refine ih ?_
    by_cases hq : w.path = q
    · subst hq; rw [write_get_self, write_get_self]
    · rw [write_get_other hq, write_get_other hq, h]

theorem writes_mem {ws : List Write} {q : Path} (h : ∃ w ∈ ws, w.path = q) (a b : FS) : (ws.foldl write a).get q = (ws.foldl write b).get q := by
  induction ws generalizing a b with
  | nil => obtain ⟨w, hw, _⟩ := h; cases hw
  | cons w ws ih =>
    by_cases hq : w.path = q
    · refine writes_congr ws ?_
      subst hq
      rw [write_get_self, write_get_self]
    · obtain ⟨w', hw', hp⟩ := h
      rcases List.mem_cons.1 hw' with rfl | hw'
      · exact absurd hp hq
      · exact ih ⟨w', hw', hp⟩ _ _

theorem writes_other {ws : List Write} {q : Path} (h : ∀ w ∈ ws, w.path ≠ q) (a : FS) : (ws.foldl write a).get q = a.get q := by
  induction ws generalizing a with
  | nil => rfl
  | cons w ws ih => rw [List.foldl_cons, ih (fun w' hw' => h w' (List.mem_cons_of_mem _ hw')), write_get_other (h w List.mem_cons_self)]

/-- The heart of the matter: an interleaved run gives the same answers as the run without others, and everything others did stays. -/
theorem interleaved_off {P : Path → Prop} {ops : List Op} {ws : List Write} {st st' : State} {r : Option AccErr} (h : Interleaved ops ws st st' r) :
    (∀ w ∈ ws, P w.path) → ∀ a : FS, a.WF → st.lower.WF → Off P a st.lower → ApartRun P ops ⟨a, st.upper⟩ →
      r = (run ops ⟨a, st.upper⟩).2 ∧ st'.upper = (run ops ⟨a, st.upper⟩).1.upper ∧ Off P (run ops ⟨a, st.upper⟩).1.lower st'.lower ∧
      ∀ q, P q → st'.lower.get q = (ws.foldl write st.lower).get q := by
  induction h with
  | done => intro _ a _ _ hab _; exact ⟨rfl, rfl, hab, fun _ _ => rfl⟩
  | @other ops w ws st st' r hwf _ ih =>
    intro hP a ha _ hab hap
    obtain ⟨h1, h2, h3, h4⟩ := ih (fun w' hw' => hP w' (List.mem_cons_of_mem _ hw')) a ha hwf (fun q hq => by
      show a.get q = (write st.lower w).get q
      rw [write_get_other (w := w) (q := q) (fun he => hq (by rw [← he]; exact hP w List.mem_cons_self))]
      exact hab q hq) hap
    exact ⟨h1, h2, h3, h4⟩
  | @step op ops ws st st1 st' r hx _ ih =>
    intro hP a ha hb hab hap
    obtain ⟨g1, g2, g3⟩ := exec_off (u := st.upper) hab ha hap.1
    have hb' := exec_step (op := op) (st := st) hb (hap.1.other hab)
    have ha' := exec_step (op := op) (st := ⟨a, st.upper⟩) ha hap.1.plain
    rw [hx] at g1 g2 g3 hb'
    cases hxa : exec op ⟨a, st.upper⟩ with
    | mk sa e =>
      rw [hxa] at g1 g2 g3 ha'
      simp only at g1 g2 g3
      subst g3
      have hsa : sa = ⟨sa.lower, st1.upper⟩ := by rw [← g2]
      have hrun : run (op :: ops) ⟨a, st.upper⟩ = run ops ⟨sa.lower, st1.upper⟩ := by simp only [run, hxa]; rw [← hsa]
      rw [hrun]
      obtain ⟨h1, h2, h3, h4⟩ := ih hP sa.lower ha'.wf hb'.wf g1 (by rw [← hsa]; exact hap.2 sa hxa)
      exact ⟨h1, h2, h3, fun q hq => by rw [h4 q hq]; exact writes_congr ws (hb'.out q (hap.1.region hq))⟩
  | @failed op ops ws st st1 st' e hx _ ih =>
    intro hP a ha hb hab hap
    obtain ⟨g1, g2, g3⟩ := exec_off (u := st.upper) hab ha hap.1
    have hb' := exec_step (op := op) (st := st) hb (hap.1.other hab)
    have ha' := exec_step (op := op) (st := ⟨a, st.upper⟩) ha hap.1.plain
    rw [hx] at g1 g2 g3 hb'
    cases hxa : exec op ⟨a, st.upper⟩ with
    | mk sa e' =>
      rw [hxa] at g1 g2 g3 ha'
      simp only at g1 g2 g3
      subst g3
      have hsa : sa = ⟨sa.lower, st1.upper⟩ := by rw [← g2]
      have hrun : run (op :: ops) ⟨a, st.upper⟩ = (sa, some e) := by simp only [run, hxa]
      rw [hrun]
      obtain ⟨_, h2, h3, h4⟩ := ih hP sa.lower ha'.wf hb'.wf g1 trivial
      refine ⟨rfl, ?_, h3, fun q hq => by rw [h4 q hq]; exact writes_congr ws (hb'.out q (hap.1.region hq))⟩
      rw [h2, g2]
      rfl

end SB
