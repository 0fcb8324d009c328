import Verif.Model.Attrs
import Verif.Lib.Whole
import Verif.Lib.ExecLemmas

/-! Attributes (proof machinery for C116): host files carry labels in a field that accept neither reads nor writes; runs do not depend on the labels. -/

namespace SB

def Node.strip (n : Node) : Node := { n with redirect := none }

namespace FS

def strip (fs : FS) : FS := fs.map (fun e => (e.1, e.2.strip))

theorem strip_isDir (n : Node) : n.strip.isDir = n.isDir := rfl
theorem strip_isLnk (n : Node) : n.strip.isLnk = n.isLnk := rfl

theorem get_strip (fs : FS) (p : Path) : fs.strip.get p = (fs.get p).map Node.strip := by
  induction fs with
  | nil => rfl
  | cons e r ih =>
    obtain ⟨q, n⟩ := e
    show (if q = p then some n.strip else get (strip r) p) = (if q = p then some n else get r p).map Node.strip
    by_cases h : q = p
    · simp [h]
    · simp [h, ih]

theorem keys_strip (fs : FS) : fs.strip.keys = fs.keys := by
  unfold strip keys
  rw [List.map_map]
  rfl

theorem isDirAt_strip (fs : FS) (p : Path) : fs.strip.isDirAt p = fs.isDirAt p := by
  unfold isDirAt
  rw [get_strip]
  cases fs.get p <;> rfl

theorem walk_strip (fs : FS) (f g : Path → Path → Except Errno Path) (h : ∀ a b, f a b = g a b) : ∀ (todo cur : Path), fs.strip.walk f cur todo = fs.walk g cur todo := by
  intro todo
  induction todo with
  | nil => intro cur; rfl
  | cons c rest ih =>
    intro cur
    simp only [walk, get_strip]
    cases fs.get cur with
    | none => rfl
    | some d =>
      simp only [Option.map_some, strip_isDir, ih]
      cases fs.get (cur ++ [c]) with
      | none => rfl
      | some m =>
        obtain ⟨k, _, _, _, _, _, _, _⟩ := m
        cases k <;> simp [Node.strip, h]

theorem resolveN_strip (fs : FS) : ∀ (n : Nat) (a b : Path), fs.strip.resolveN n a b = fs.resolveN n a b := by
  intro n
  induction n with
  | zero => intro a b; exact walk_strip fs _ _ (fun _ _ => rfl) b a
  | succ n ih => intro a b; exact walk_strip fs _ _ ih b a

theorem realpath_strip (fs : FS) (p : Path) : fs.strip.realpath p = fs.realpath p := resolveN_strip fs 40 [] p

theorem canon_strip (fs : FS) (p : Path) : fs.strip.canon p = fs.canon p := by
  unfold canon
  cases p.getLast? with
  | none => rfl
  | some l =>
    dsimp only
    rw [realpath_strip]
    cases fs.realpath p.dropLast with
    | error e => rfl
    | ok d => dsimp only; rw [isDirAt_strip]

theorem lstat_strip (fs : FS) (p : Path) : fs.strip.lstat p = (fs.lstat p).map Node.strip := by
  unfold lstat
  rw [canon_strip]
  cases fs.canon p with
  | error e => rfl
  | ok c =>
    dsimp only
    rw [get_strip]
    cases fs.get c <;> rfl

theorem pisDir_strip (fs : FS) (p : Path) : fs.strip.pisDir p = fs.pisDir p := by
  unfold pisDir stat
  rw [realpath_strip]
  cases fs.realpath p with
  | error e => rfl
  | ok c =>
    dsimp only
    rw [get_strip]
    cases fs.get c <;> rfl

theorem devOf_strip (fs : FS) (p : Path) : fs.strip.devOf p = fs.devOf p := by
  unfold devOf
  rw [get_strip]
  cases fs.get p <;> rfl

theorem mountPoint_strip (fs : FS) (p : Path) : fs.strip.mountPoint p = fs.mountPoint p := by
  unfold mountPoint
  rw [devOf_strip, devOf_strip]

theorem hasChild_strip (fs : FS) (p : Path) : fs.strip.hasChild p = fs.hasChild p := by
  unfold hasChild strip
  rw [List.any_map]
  rfl

theorem strip_set (fs : FS) (p : Path) (n : Node) : (fs.set p n).strip = fs.strip.set p n.strip := by
  induction fs with
  | nil => rfl
  | cons e r ih =>
    obtain ⟨q, m⟩ := e
    show strip (if q = p then (p, n) :: r else (q, m) :: set r p n) = if q = p then (p, n.strip) :: strip r else (q, m.strip) :: set (strip r) p n.strip
    by_cases h : q = p
    · simp [h, strip]
    · rw [if_neg h, if_neg h, ← ih]
      rfl

theorem strip_del (fs : FS) (p : Path) : (fs.del p).strip = fs.strip.del p := by
  unfold del strip
  rw [List.filter_map]
  rfl

theorem strip_moveTree (fs : FS) (a b : Path) : (fs.moveTree a b).strip = fs.strip.moveTree a b := by
  unfold moveTree strip
  rw [List.filter_map, List.map_map, List.map_map]
  apply List.map_congr_left
  intro e _
  by_cases h : a.isPrefixOf e.1 = true <;> simp [Function.comp, h]

theorem strip_unlink (fs : FS) (p : Path) : (fs.unlink p).map strip = fs.strip.unlink p := by
  unfold unlink
  rw [canon_strip]
  cases fs.canon p with
  | error e => rfl
  | ok c =>
    dsimp only
    rw [get_strip]
    cases fs.get c with
    | none => rfl
    | some n =>
      simp only [Option.map_some, strip_isDir, ← strip_del]
      split_ifs <;> rfl

theorem strip_rmdir (fs : FS) (p : Path) : (fs.rmdir p).map strip = fs.strip.rmdir p := by
  unfold rmdir
  rw [canon_strip]
  cases fs.canon p with
  | error e => rfl
  | ok c =>
    dsimp only
    rw [get_strip]
    cases fs.get c with
    | none => rfl
    | some n =>
      simp only [Option.map_some, strip_isDir, mountPoint_strip, hasChild_strip, ← strip_del]
      split_ifs <;> rfl

theorem strip_mkdir (fs : FS) (p : Path) : (fs.mkdir p).map strip = fs.strip.mkdir p := by
  unfold mkdir
  rw [canon_strip]
  cases fs.canon p with
  | error e => rfl
  | ok c =>
    dsimp only
    rw [get_strip]
    cases fs.get c with
    | some n => rfl
    | none => simp only [Option.map_none, Except.map, strip_set, devOf_strip]; rfl

theorem strip_symlink (fs : FS) (t : Str) (p : Path) : (fs.symlink t p).map strip = fs.strip.symlink t p := by
  unfold symlink
  rw [canon_strip]
  cases fs.canon p with
  | error e => rfl
  | ok c =>
    dsimp only
    rw [get_strip]
    cases fs.get c with
    | some n => rfl
    | none => simp only [Option.map_none, Except.map, strip_set, devOf_strip]; rfl

theorem strip_writeFile (fs : FS) (p : Path) (d : Str) (m : Nat) : (fs.writeFile p d m).map strip = fs.strip.writeFile p d m := by
  unfold writeFile
  rw [canon_strip]
  cases fs.canon p with
  | error e => rfl
  | ok c =>
    dsimp only
    rw [get_strip]
    cases fs.get c with
    | none => simp only [Option.map_none, Except.map, strip_set, devOf_strip]; rfl
    | some n =>
      obtain ⟨k, _, _, _, _, _, _, _⟩ := n
      cases k <;> simp [Node.strip, Except.map, strip_set]

theorem strip_chown (fs : FS) (p : Path) (u g : Nat) : (fs.chown p u g).map strip = fs.strip.chown p u g := by
  unfold chown
  rw [canon_strip]
  cases fs.canon p with
  | error e => rfl
  | ok c =>
    dsimp only
    rw [get_strip]
    cases fs.get c with
    | none => rfl
    | some n => simp only [Option.map_some, Except.map, strip_set]; rfl

theorem strip_chmod (fs : FS) (p : Path) (m : Nat) : (fs.chmod p m).map strip = fs.strip.chmod p m := by
  unfold chmod
  rw [canon_strip]
  cases fs.canon p with
  | error e => rfl
  | ok c =>
    dsimp only
    rw [get_strip]
    cases fs.get c with
    | none => rfl
    | some n =>
      simp only [Option.map_some]
      rw [strip_isLnk]
      by_cases hl : n.isLnk = true
      · rw [if_pos hl, if_pos hl]; rfl
      · rw [if_neg hl, if_neg hl]
        simp only [Except.map, strip_set]
        rfl

theorem strip_rename (fs : FS) (p q : Path) : (fs.rename p q).map strip = fs.strip.rename p q := by
  unfold rename
  rw [canon_strip, canon_strip]
  cases fs.canon p with
  | error e => rfl
  | ok a =>
    cases fs.canon q with
    | error e => rfl
    | ok b =>
      dsimp only
      rw [get_strip]
      cases fs.get a with
      | none => rfl
      | some n =>
        simp only [Option.map_some, strip_isDir, mountPoint_strip, hasChild_strip, devOf_strip, get_strip]
        by_cases h1 : a = b
        · simp only [h1, if_true]; rfl
        rw [if_neg h1, if_neg h1]
        by_cases h2 : a = [] ∨ b = []
        · rw [if_pos h2, if_pos h2]; rfl
        rw [if_neg h2, if_neg h2]
        by_cases h3 : fs.devOf a.dropLast ≠ fs.devOf b.dropLast
        · rw [if_pos h3, if_pos h3]; rfl
        rw [if_neg h3, if_neg h3]
        by_cases h4 : a.isPrefixOf b = true
        · rw [if_pos h4, if_pos h4]; rfl
        rw [if_neg h4, if_neg h4]
        by_cases h5 : b.isPrefixOf a = true
        · rw [if_pos h5, if_pos h5]; rfl
        rw [if_neg h5, if_neg h5]
        by_cases h6 : (n.isDir && fs.mountPoint a) = true
        · rw [if_pos h6, if_pos h6]; rfl
        rw [if_neg h6, if_neg h6, ← strip_moveTree]
        cases fs.get b with
        | none => rfl
        | some m =>
          simp only [Option.map_some]
          rw [strip_isDir]
          split_ifs <;> rfl

end FS

def State.strip (st : State) : State := ⟨st.lower.strip, st.upper⟩

theorem lift_strip {st : State} {x : Except Errno FS} {y : Except Errno FS} (h : x.map FS.strip = y) : liftLower st.strip y = ((liftLower st x).1.strip, (liftLower st x).2) := by
  subst h
  cases x <;> rfl

theorem exec_strip (op : Op) (st : State) : exec op st.strip = ((exec op st).1.strip, (exec op st).2) := by
  cases op with
  | rm p => exact lift_strip (FS.strip_unlink _ _)
  | rmdir p => exact lift_strip (FS.strip_rmdir _ _)
  | mv a b => exact lift_strip (FS.strip_rename _ _ _)
  | chown p u g => exact lift_strip (FS.strip_chown _ _ _ _)
  | chmod p m => exact lift_strip (FS.strip_chmod _ _ _)
  | cp s t =>
    have hu : st.strip.upper = st.upper := rfl
    simp only [exec, hu]
    cases st.upper.get s with
    | none => rfl
    | some n =>
      cases hk : n.kind <;> simp only [hk] <;> first | exact lift_strip (FS.strip_writeFile _ _ _ _) | rfl
  | ln s p =>
    have hu : st.strip.upper = st.upper := rfl
    simp only [exec, hu]
    cases st.upper.get s with
    | none => rfl
    | some n =>
      cases hk : n.kind <;> simp only [hk] <;> first | exact lift_strip (FS.strip_symlink _ _ _) | rfl
  | rmIfExists p =>
    have hl : st.strip.lower = st.lower.strip := rfl
    simp only [exec, hl, FS.lstat_strip]
    cases st.lower.lstat p with
    | ok n => exact lift_strip (FS.strip_unlink _ _)
    | error e => cases e <;> rfl
  | mkdirIfNeeded p =>
    have hl : st.strip.lower = st.lower.strip := rfl
    simp only [exec, hl, FS.pisDir_strip]
    cases st.lower.pisDir p with
    | true => rfl
    | false => exact lift_strip (FS.strip_mkdir _ _)
  | clean p =>
    have hu : st.strip.upper = st.upper := rfl
    simp only [exec, hu]
    cases st.upper.get p with
    | none => rfl
    | some n =>
      dsimp only
      split
      · cases rmdirRecursive st.upper p with
        | mk up e => cases e <;> rfl
      · cases st.upper.unlink p <;> rfl

/-- Equal but for the labels. -/
def SameBut (st l : State) : Prop := l.strip = st.strip

theorem SameBut.exec {st l : State} (h : SameBut st l) (op : Op) : SameBut (exec op st).1 (exec op l).1 ∧ (SB.exec op l).2 = (SB.exec op st).2 := by
  have h1 := exec_strip op st
  have h2 := exec_strip op l
  rw [show l.strip = st.strip from h, h1] at h2
  exact ⟨(congrArg Prod.fst h2).symm, (congrArg Prod.snd h2).symm⟩

theorem SameBut.canon {st l : State} (h : SameBut st l) (p : Path) : l.lower.canon p = st.lower.canon p := by
  rw [← FS.canon_strip l.lower, ← FS.canon_strip st.lower, show l.lower.strip = st.lower.strip from congrArg State.lower h]

theorem SameBut.pisDir {st l : State} (h : SameBut st l) (p : Path) : l.lower.pisDir p = st.lower.pisDir p := by
  rw [← FS.pisDir_strip l.lower, ← FS.pisDir_strip st.lower, show l.lower.strip = st.lower.strip from congrArg State.lower h]

theorem SameBut.get {st l : State} (h : SameBut st l) (p : Path) : (l.lower.get p).map Node.strip = (st.lower.get p).map Node.strip := by
  rw [← FS.get_strip, ← FS.get_strip, show l.lower.strip = st.lower.strip from congrArg State.lower h]

theorem SameBut.isSome {st l : State} (h : SameBut st l) (p : Path) : (l.lower.get p).isSome = (st.lower.get p).isSome := by
  have := congrArg Option.isSome (h.get p)
  simpa using this

/-! ### Labels tell where the attributes come from -/

section
variable {X : Type} (bare : X) (name : Str → X)

/-- The attributes a label stands for. -/
def attOf : Option Str → X
  | none => bare
  | some t => name t

def Tells (fs : FS) (a : Path → X) : Prop := ∀ q n, fs.get q = some n → a q = attOf bare name n.redirect

variable {bare name}

theorem Tells.set {fs : FS} {a : Path → X} (h : Tells bare name fs a) {c : Path} {n m : Node} (hg : fs.get c = some n) (hr : m.redirect = n.redirect) : Tells bare name (fs.set c m) a := by
  intro q x hx
  rw [FS.get_set] at hx
  by_cases hq : c = q
  · subst hq
    rw [if_pos rfl] at hx
    cases hx
    rw [hr]
    exact h c n hg
  · rw [if_neg hq] at hx
    exact h q x hx

theorem Tells.new {fs : FS} {a : Path → X} (h : Tells bare name fs a) {c : Path} {m : Node} (hr : m.redirect = none) : Tells bare name (fs.set c m) (fun x => if x = c then bare else a x) := by
  intro q x hx
  rw [FS.get_set] at hx
  by_cases hq : c = q
  · subst hq
    rw [if_pos rfl] at hx
    cases hx
    simp only [if_true]
    rw [hr]
    rfl
  · rw [if_neg hq] at hx
    simp only [if_neg (Ne.symm hq)]
    exact h q x hx

theorem Tells.del {fs : FS} {a : Path → X} (h : Tells bare name fs a) (c : Path) : Tells bare name (fs.del c) a := by
  intro q x hx
  rw [FS.get_del] at hx
  split at hx
  · cases hx
  · exact h q x hx

theorem Tells.unlink {fs gs : FS} {a : Path → X} {p : Path} (h : Tells bare name fs a) (hx : fs.unlink p = .ok gs) : Tells bare name gs a := by
  unfold FS.unlink at hx
  split at hx
  · cases hx
  · split at hx
    · cases hx
    · split at hx
      · cases hx
      · cases hx; exact h.del _

theorem Tells.exec {op : Op} {l l' : State} {a : Path → X} (h : Tells bare name l.lower a) (hx : exec op l = (l', none)) : Tells bare name l'.lower (attrAfter bare l.lower op a) := by
  cases op with
  | rm p =>
    simp only [SB.exec] at hx
    obtain ⟨fs, hfs, rfl⟩ := run_liftLower hx
    exact h.unlink hfs
  | rmdir p =>
    simp only [SB.exec] at hx
    obtain ⟨fs, hfs, rfl⟩ := run_liftLower hx
    unfold FS.rmdir at hfs
    split at hfs
    · cases hfs
    · split at hfs
      · cases hfs
      · split_ifs at hfs
        cases hfs
        exact h.del _
  | rmIfExists p =>
    simp only [SB.exec] at hx
    split at hx
    · obtain ⟨fs, hfs, rfl⟩ := run_liftLower hx
      exact h.unlink hfs
    · cases hx; exact h
    · cases hx
  | chown p u g =>
    simp only [SB.exec] at hx
    obtain ⟨fs, hfs, rfl⟩ := run_liftLower hx
    unfold FS.chown at hfs
    split at hfs
    · cases hfs
    · split at hfs
      · cases hfs
      · next hg => cases hfs; exact h.set hg rfl
  | chmod p m =>
    simp only [SB.exec] at hx
    obtain ⟨fs, hfs, rfl⟩ := run_liftLower hx
    unfold FS.chmod at hfs
    split at hfs
    · cases hfs
    · split at hfs
      · cases hfs
      · next hg =>
        split at hfs
        · cases hfs
        · cases hfs; exact h.set hg rfl
  | clean p =>
    have : l'.lower = l.lower := by
      simp only [SB.exec] at hx
      split at hx
      · cases hx
      · split at hx
        · split at hx <;> cases hx; rfl
        · split at hx <;> cases hx; rfl
    rw [this]
    exact h
  | cp s t =>
    simp only [SB.exec] at hx
    split at hx
    · cases hx
    · split at hx
      · obtain ⟨fs, hfs, rfl⟩ := run_liftLower hx
        unfold FS.writeFile at hfs
        simp only [attrAfter]
        cases hc : l.lower.canon t with
        | error e => rw [hc] at hfs; cases hfs
        | ok c =>
          rw [hc] at hfs
          dsimp only at hfs ⊢
          cases hg : l.lower.get c with
          | none =>
            rw [hg] at hfs
            cases hfs
            exact h.new rfl
          | some n =>
            rw [hg] at hfs
            dsimp only at hfs
            simp only [Option.isSome_some, if_true]
            split at hfs
            · cases hfs; exact h.set hg rfl
            all_goals cases hfs
      · cases hx
  | ln s p =>
    simp only [SB.exec] at hx
    split at hx
    · cases hx
    · split at hx
      · obtain ⟨fs, hfs, rfl⟩ := run_liftLower hx
        unfold FS.symlink at hfs
        simp only [attrAfter]
        cases hc : l.lower.canon p with
        | error e => rw [hc] at hfs; cases hfs
        | ok c =>
          rw [hc] at hfs
          dsimp only at hfs ⊢
          cases hg : l.lower.get c with
          | none => rw [hg] at hfs; cases hfs; exact h.new rfl
          | some n => rw [hg] at hfs; cases hfs
      · cases hx
  | mkdirIfNeeded p =>
    simp only [SB.exec] at hx
    simp only [attrAfter]
    split at hx
    · next hd => rw [if_pos hd]; cases hx; exact h
    · next hd =>
      rw [if_neg hd]
      obtain ⟨fs, hfs, rfl⟩ := run_liftLower hx
      unfold FS.mkdir at hfs
      cases hc : l.lower.canon p with
      | error e => rw [hc] at hfs; cases hfs
      | ok c =>
        rw [hc] at hfs
        dsimp only at hfs ⊢
        cases hg : l.lower.get c with
        | none => rw [hg] at hfs; cases hfs; exact h.new rfl
        | some n => rw [hg] at hfs; cases hfs
  | mv p q =>
    simp only [SB.exec] at hx
    obtain ⟨fs, hfs, rfl⟩ := run_liftLower hx
    simp only [attrAfter]
    unfold FS.rename at hfs
    cases ha : l.lower.canon p with
    | error e => rw [ha] at hfs; cases hfs
    | ok s =>
      cases hb : l.lower.canon q with
      | error e => rw [ha, hb] at hfs; cases hfs
      | ok d =>
        rw [ha, hb] at hfs
        dsimp only at hfs ⊢
        cases hg : l.lower.get s with
        | none => rw [hg] at hfs; cases hfs
        | some n =>
          rw [hg] at hfs
          dsimp only at hfs
          by_cases h1 : s = d
          · rw [if_pos h1] at hfs
            cases hfs
            simp only [if_pos h1]
            exact h
          rw [if_neg h1] at hfs
          simp only [if_neg h1]
          by_cases h2 : s = [] ∨ d = []
          · rw [if_pos h2] at hfs; cases hfs
          rw [if_neg h2] at hfs
          by_cases h3 : l.lower.devOf s.dropLast ≠ l.lower.devOf d.dropLast
          · rw [if_pos h3] at hfs; cases hfs
          rw [if_neg h3] at hfs
          by_cases h4 : s.isPrefixOf d = true
          · rw [if_pos h4] at hfs; cases hfs
          rw [if_neg h4] at hfs
          by_cases h5 : d.isPrefixOf s = true
          · rw [if_pos h5] at hfs; cases hfs
          rw [if_neg h5] at hfs
          have hm : fs = l.lower.moveTree s d := by
            by_cases h6 : (n.isDir && l.lower.mountPoint s) = true
            · rw [if_pos h6] at hfs; cases hfs
            rw [if_neg h6] at hfs
            split at hfs
            · cases hfs; rfl
            · split_ifs at hfs <;> cases hfs <;> rfl
          subst hm
          intro x m hm
          dsimp only
          rw [FS.get_moveTree l.lower (fun h => h4 (List.isPrefixOf_iff_prefix.2 h)) (fun h => h5 (List.isPrefixOf_iff_prefix.2 h))] at hm
          by_cases h7 : d <+: x
          · rw [if_pos h7] at hm
            rw [if_pos (List.isPrefixOf_iff_prefix.2 h7)]
            exact h _ _ hm
          · rw [if_neg h7] at hm
            rw [if_neg (fun h => h7 (List.isPrefixOf_iff_prefix.1 h))]
            split at hm
            · cases hm
            · exact h _ _ hm

theorem attrAfter_same {st l : State} (h : SameBut st l) (op : Op) (a : Path → X) : attrAfter bare st.lower op a = attrAfter bare l.lower op a := by
  cases op <;> simp only [attrAfter, h.canon, h.pisDir, h.isSome]

end

/-- The tree of the attributed run is that of the run. -/
theorem runAttrs_st {X : Type} {bare : X} : ∀ {ops : List Op} {S : AttrState X}, run ops S.st = ((runAttrs bare ops S).1.st, (runAttrs bare ops S).2) := by
  intro ops
  induction ops with
  | nil => intro S; rfl
  | cons op ops ih =>
    intro S
    simp only [run, runAttrs, execAttrs]
    cases hx : exec op S.st with
    | mk s e =>
      cases e with
      | some e => rfl
      | none => exact ih (S := ⟨s, _⟩)

end SB
