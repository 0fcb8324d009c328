import Verif.Props.Prepare
import Verif.Spec.Overlay

/-!
# C73: a sandbox can be started, and started again; C74: a new sandbox shows the host
-/

namespace SB

/-- The directories that get an owner when a sandbox is started: the sandbox's own belong to the user, the layers of a mount to the owner of the mount's directory. -/
inductive Spec.OwnerOf (s : StartFiles) (fs : FS) : Path → Nat → Nat → Prop where
  | storage : Spec.OwnerOf s fs s.storage s.uid s.gid
  | sandbox : Spec.OwnerOf s fs (s.storage ++ [s.name]) s.uid s.gid
  | data : Spec.OwnerOf s fs (s.storage ++ [s.name, str "data"]) s.uid s.gid
  | layer {l m n} : l ∈ [str "work", str "upper", str "overlay"] → m ∈ s.mounts → fs.get m.dir = some n → Spec.OwnerOf s fs (s.storage ++ [s.name, l, m.hash]) n.uid n.gid

/-- Whatever is already at the places of the sandbox is what belongs there: directories with the right owner, regular files. -/
structure Spec.CanStart (s : StartFiles) (fs : FS) : Prop where
  clear : Spec.StartClear s fs
  dirs : ∀ p n, Spec.StartDir s p → fs.get p = some n → n.isDir = true
  files : ∀ p n, Spec.StartFile s p → fs.get p = some n → n.isReg = true
  mounts : ∀ m ∈ s.mounts, NormalPath m.dir ∧ ∃ n, fs.get m.dir = some n ∧ n.isDir = true
  names : ∀ m ∈ s.mounts, ∀ m' ∈ s.mounts, m.hash = m'.hash → m.dir = m'.dir
  owners : ∀ p u g n, Spec.OwnerOf s fs p u g → fs.get p = some n → n.uid = u ∧ n.gid = g

namespace Prep

open Spec

/-- Every prefix of the path is a directory or missing. -/
def Sparse (fs : FS) (p : Path) : Prop := ∀ r, r <+: p → ∀ n, fs.get r = some n → n.isDir = true

theorem walk_missing (fs : FS) (onLink : Path → Path → Except Errno Path) : ∀ (todo cur : Path), fs.isDirAt cur = true → NormalPath todo →
    (∀ r, r <+: todo → ∀ n, fs.get (cur ++ r) = some n → n.isDir = true) → fs.get (cur ++ todo) = none → FS.walk fs onLink cur todo = .error .ENOENT
  | [], cur, h, _, _, hg => by
    obtain ⟨n, hn, _⟩ := FS.isDirAt_iff.1 h
    rw [List.append_nil, hn] at hg; cases hg
  | x :: r, cur, h, hN, hs, hg => by
    obtain ⟨n, hn, hnd⟩ := FS.isDirAt_iff.1 h
    unfold FS.walk
    simp only [hn, hnd, if_true]
    rw [if_neg (hN x (by simp)).2.2.2]
    cases hx : fs.get (cur ++ [x]) with
    | none => rfl
    | some m =>
      have hm : m.isDir = true := hs [x] (by simp) m hx
      have hk : m.kind = .dir := by simpa [Node.isDir] using hm
      simp only [hk]
      refine walk_missing fs onLink r (cur ++ [x]) (FS.isDirAt_iff.2 ⟨m, hx, hm⟩) (fun n hn => hN n (by simp [hn])) (fun q hq n hn => hs (x :: q) ?_ n (by simpa using hn)) (by simpa using hg)
      simpa using hq

theorem realpath_sparse {fs : FS} (hw : fs.WF) {p : Path} (hN : NormalPath p) (hs : Sparse fs p) :
    fs.realpath p = if fs.isDirAt p = true then .ok p else .error .ENOENT := by
  split
  · next hd =>
    obtain ⟨n, hn, _⟩ := FS.isDirAt_iff.1 hd
    refine FS.realpath_dirs fs p hN (fun r hr => ?_)
    by_cases he : r = p
    · rw [he]; exact hd
    · exact hw.ancestor hn (below_iff.2 ⟨hr, he⟩)
  · next hd =>
    have hg : fs.get p = none := by
      cases hg : fs.get p with
      | none => rfl
      | some n => exact absurd (FS.isDirAt_iff.2 ⟨n, hg, hs p (List.prefix_refl _) n hg⟩) hd
    exact walk_missing fs _ p [] hw.root hN (fun r hr n hn => hs r hr n (by simpa using hn)) (by simpa using hg)

theorem mkdir_sparse {fs : FS} (hw : fs.WF) {p : Path} (hp : p ≠ []) (hN : NormalPath p) (hs : Sparse fs p) :
    fs.mkdir p = if fs.isDirAt p.dropLast = true then (if fs.isDirAt p = true then .error .EEXIST else .ok (fs.set p { kind := .dir, perm := 0o755, dev := fs.devOf p.dropLast })) else .error .ENOENT := by
  obtain ⟨d, x, rfl⟩ : ∃ d x, p = d ++ [x] := by
    rcases List.eq_nil_or_concat p with h | ⟨d, x, h⟩
    · exact absurd h hp
    · exact ⟨d, x, by simpa using h⟩
  have hr := realpath_sparse hw (hN.of_prefix (List.prefix_append d [x])) (fun r hr => hs r (hr.trans (List.prefix_append d [x])))
  unfold FS.mkdir FS.canon
  simp only [List.getLast?_concat, List.dropLast_concat, hr]
  by_cases hd : fs.isDirAt d = true
  · simp only [hd, if_true]
    by_cases hx : fs.isDirAt (d ++ [x]) = true
    · obtain ⟨n, hn, _⟩ := FS.isDirAt_iff.1 hx
      simp [hn, hx]
    · have hg : fs.get (d ++ [x]) = none := by
        cases hg : fs.get (d ++ [x]) with
        | none => rfl
        | some n => exact absurd (FS.isDirAt_iff.2 ⟨n, hg, hs _ (List.prefix_refl _) n hg⟩) hx
      simp [hg, hx]
  · simp [hd]

theorem pisDir_of {fs : FS} (hw : fs.WF) {p : Path} (hN : NormalPath p) (hd : fs.isDirAt p = true) : fs.pisDir p = true := by
  obtain ⟨n, hn, hnd⟩ := FS.isDirAt_iff.1 hd
  have hr : fs.realpath p = .ok p := FS.realpath_dirs fs p hN (fun r hr => by
    by_cases he : r = p
    · rw [he]; exact hd
    · exact hw.ancestor hn (below_iff.2 ⟨hr, he⟩))
  unfold FS.pisDir FS.stat
  simp [hr, hn, hnd]

/-- Directories where directories belong, everywhere. -/
def Dirs (s : StartFiles) (fs : FS) : Prop := ∀ p n, StartDir s p → fs.get p = some n → n.isDir = true

theorem Dirs.good {s : StartFiles} {fs fs' : FS} (h : Dirs s fs) (g : Good s fs fs') : Dirs s fs' := by
  intro p n hp hg
  rcases g.keeps.made p n hg with h1 | ⟨_, _, h1, _⟩ | ⟨h1, _⟩
  · exact h p n hp h1
  · simp [Node.isDir, h1]
  · exact absurd h1 (dir_not_file hp)

theorem Dirs.sparse {s : StartFiles} {fs : FS} (h : Dirs s fs) {p : Path} (hp : StartDir s p) : Sparse fs p := fun r hr n hn => h r n (dir_prefix hp hr) hn

theorem createDirAll_done {s : StartFiles} : ∀ (up : List Name) {fs : FS}, fs.WF → StartClear s fs → Dirs s fs → StartDir s up.reverse →
    (createDirAll fs up).err = none ∧ (createDirAll fs up).fs.isDirAt up.reverse = true
  | [], fs, hw, _, _, _ => ⟨rfl, hw.root⟩
  | x :: up, fs, hw, hc, hd, hp => by
    have hup : StartDir s up.reverse := dir_prefix hp (by simp)
    have hne : (x :: up).reverse ≠ [] := by simp
    have hdl : (x :: up).reverse.dropLast = up.reverse := by simp
    have hN := normal_dir hc hp
    have made : ∀ {fs : FS} (n : Node), n.isDir = true → (fs.set (x :: up).reverse n).isDirAt (x :: up).reverse = true := fun n hn =>
      FS.isDirAt_iff.2 ⟨n, by rw [FS.get_set, if_pos rfl], hn⟩
    unfold createDirAll
    rw [mkdir_sparse hw hne hN (hd.sparse hp), hdl]
    by_cases hpd : fs.isDirAt up.reverse = true
    · rw [if_pos hpd]
      by_cases hx : fs.isDirAt (x :: up).reverse = true
      · rw [if_pos hx]
        simp only
        rw [if_pos (pisDir_of hw hN hx)]
        exact ⟨rfl, hx⟩
      · rw [if_neg hx]
        exact ⟨rfl, made _ rfl⟩
    · rw [if_neg hpd]
      simp only
      obtain ⟨h1, h2⟩ := createDirAll_done up hw hc hd hup
      have g := (createDirAll_good up hw hc hup).2
      have hd1 := hd.good g
      unfold Passed.andThen
      rw [h1]
      simp only
      rw [mkdir_sparse g.wf hne hN (hd1.sparse hp), hdl, if_pos h2]
      by_cases hx : (createDirAll fs up).fs.isDirAt (x :: up).reverse = true
      · rw [if_pos hx]
        simp only
        rw [if_pos (pisDir_of g.wf hN hx)]
        exact ⟨rfl, hx⟩
      · rw [if_neg hx]
        exact ⟨rfl, made _ rfl⟩

theorem chown_done {fs : FS} (hw : fs.WF) {p : Path} (hN : NormalPath p) {n : Node} (hg : fs.get p = some n) (u g : Nat) :
    fs.chown p u g = .ok (fs.set p { n with uid := u, gid := g, perm := if n.isDir then n.perm else FS.killSuid n.perm }) := by
  unfold FS.chown
  rw [FS.canon_chain hN (hw.chain hg)]
  simp [hg]

theorem mkdirOwned_done {s : StartFiles} {fs : FS} (hw : fs.WF) (hc : StartClear s fs) (hd : Dirs s fs) {p : Path} (hp : StartDir s p) {u g : Nat}
    (ho : ∀ n, fs.get p = some n → n.uid = u ∧ n.gid = g) :
    (mkdirOwned fs p u g).err = none ∧ ∃ n, (mkdirOwned fs p u g).fs.get p = some n ∧ n.isDir = true ∧ n.uid = u ∧ n.gid = g := by
  have hN := normal_dir hc hp
  have hex := FS.pexists_iff hw hN (nolink_dir hc hp)
  have fin : ∀ {x : FS} (_ : x.WF) {n : Node} (_ : x.get p = some n) (_ : n.isDir = true),
      let t := (match x.realpath p with
        | .error e => ⟨[], x, some (.sys e)⟩
        | .ok c => oneCall x (x.chown c u g) : Passed)
      t.err = none ∧ ∃ n, t.fs.get p = some n ∧ n.isDir = true ∧ n.uid = u ∧ n.gid = g := by
    intro x hwx n hn hnd
    have hr : x.realpath p = .ok p := FS.realpath_dirs x p hN (fun r hr => by
      by_cases he : r = p
      · rw [he]; exact FS.isDirAt_iff.2 ⟨n, hn, hnd⟩
      · exact hwx.ancestor hn (below_iff.2 ⟨hr, he⟩))
    simp only [hr, chown_done hwx hN hn, oneCall]
    refine ⟨trivial, _, by rw [FS.get_set, if_pos rfl], ?_, rfl, rfl⟩
    simpa [Node.isDir] using hnd
  unfold mkdirOwned
  by_cases he : fs.pexists p = true
  · obtain ⟨n, hn⟩ := hex.1 he
    have hnd := hd p n hp hn
    have hl : fs.lstat p = .ok n := by rw [FS.lstat_chain hN (hw.chain hn), hn]
    simp only [he, if_true, hl, hnd, ho n hn, and_self, Passed.andThen]
    exact fin hw hn hnd
  · simp only [he, Bool.false_eq_true, if_false]
    obtain ⟨h1, h2⟩ := createDirAll_done p.reverse hw hc hd (by rw [List.reverse_reverse]; exact hp)
    have g1 := (createDirAll_good p.reverse hw hc (by rw [List.reverse_reverse]; exact hp)).2
    rw [List.reverse_reverse] at h2
    obtain ⟨n, hn, hnd⟩ := FS.isDirAt_iff.1 h2
    unfold Passed.andThen
    rw [h1]
    exact fin g1.wf hn hnd

/-- Making a directory touches only the directories above it. -/
theorem createDirAll_only : ∀ (up : List Name) {s : StartFiles} {fs : FS}, fs.WF → StartClear s fs → StartDir s up.reverse → ∀ r, ¬ r <+: up.reverse →
    (createDirAll fs up).fs.get r = fs.get r
  | [], _, _, _, _, _, _, _ => rfl
  | x :: up, s, fs, hw, hc, hp, r, hr => by
    have hup : StartDir s up.reverse := dir_prefix hp (by simp)
    have hN := normal_dir hc hp
    have one : ∀ {a b : FS}, a.WF → StartClear s a → a.mkdir (x :: up).reverse = .ok b → b.get r = a.get r := by
      intro a b hwa hca h
      obtain ⟨rfl, _, _⟩ := FS.mkdir_plain hwa hN (above_dir hca hp) h
      rw [FS.get_set, if_neg (by rintro rfl; exact hr (List.prefix_refl _))]
    have ih := createDirAll_only up hw hc hup r (fun h => hr (h.trans (by simp)))
    have g := (createDirAll_good up hw hc hup).2
    unfold createDirAll
    split
    · next fs' h => exact one hw hc h
    · next h =>
      unfold Passed.andThen
      split
      · exact ih
      · simp only
        split
        · next fs2 h2 => rw [one g.wf g.clear h2, ih]
        · split
          · exact ih
          · exact ih
    · split <;> rfl

theorem mkdirOwned_only {s : StartFiles} {fs : FS} (hw : fs.WF) (hc : StartClear s fs) {p : Path} (hp : StartDir s p) (u g : Nat) (r : Path) (hr : ¬ r <+: p) :
    (mkdirOwned fs p u g).fs.get r = fs.get r := by
  have hN := normal_dir hc hp
  have fin : ∀ {x : FS} (_ : x.WF) (_ : StartClear s x),
      (match x.realpath p with
        | .error e => ⟨[], x, some (.sys e)⟩
        | .ok c => oneCall x (x.chown c u g) : Passed).fs.get r = x.get r := by
    intro x hwx hcx
    split
    · rfl
    · next c h =>
      have := FS.realpath_nolink hN (nolink_dir hcx hp) h
      subst this
      unfold oneCall
      split
      · next y hy =>
        obtain ⟨m, hm, _, rfl⟩ := FS.chown_plain hwx hN (above_dir hcx hp) hy
        rw [FS.get_set, if_neg (by rintro rfl; exact hr (List.prefix_refl _))]
      · rfl
  have g1 := (createDirAll_good p.reverse hw hc (by rw [List.reverse_reverse]; exact hp)).2
  have only := createDirAll_only p.reverse hw hc (by rw [List.reverse_reverse]; exact hp) r (by rw [List.reverse_reverse]; exact hr)
  unfold mkdirOwned Passed.andThen
  simp only
  by_cases he : fs.pexists p = true
  · simp only [he, if_true]
    split
    · split
      · rfl
      · split
        · split <;> rfl
        · rfl
    · next hnone =>
      cases hl : fs.lstat p with
      | error e => rw [hl] at hnone; cases hnone
      | ok n =>
        simp only [hl] at hnone ⊢
        by_cases h1 : n.isDir = true
        · simp only [h1, if_true] at hnone ⊢
          by_cases h2 : n.uid = u ∧ n.gid = g
          · simp only [h2, and_self, if_true]; exact fin hw hc
          · rw [if_neg h2] at hnone; cases hnone
        · rw [if_neg h1] at hnone; cases hnone
  · simp only [he, Bool.false_eq_true, if_false]
    split
    · exact only
    · exact (fin g1.wf g1.clear).trans only

theorem owned_dir {s : StartFiles} {fs : FS} {p : Path} {u g : Nat} (h : OwnerOf s fs p u g) : StartDir s p := by
  cases h with
  | storage => exact .storage (List.prefix_refl _)
  | sandbox => exact .sandbox
  | data => exact .data
  | layer hl hm _ => exact .layer hl hm

theorem owned_below {s : StartFiles} {fs : FS} {p q : Path} {u g u' g' : Nat} (hq : OwnerOf s fs q u g) (hp : OwnerOf s fs p u' g') (hb : Below q p) :
    (q = s.storage ∧ p ≠ s.storage) ∨ (q = s.storage ++ [s.name] ∧ p ≠ s.storage ∧ p ≠ s.storage ++ [s.name]) := by
  obtain ⟨r, hr, he⟩ := hb
  have hlen : p.length > q.length := by
    rw [he, List.length_append]
    have := List.length_pos_of_ne_nil hr
    omega
  have ne : ∀ {a b : Path}, a.length ≠ b.length → a ≠ b := fun h e => h (congrArg _ e)
  cases hq with
  | storage => exact .inl ⟨rfl, ne (by omega)⟩
  | sandbox => exact .inr ⟨rfl, ne (by simp at hlen; omega), ne (by omega)⟩
  | data =>
    exfalso
    cases hp with
    | storage => simp at hlen; omega
    | sandbox => simp at hlen
    | data => simp at hlen
    | layer hl =>
      rw [List.append_assoc] at he
      have := List.append_cancel_left he
      simp only [List.cons_append, List.nil_append, List.cons.injEq, true_and] at this
      rw [this.1] at hl
      revert hl; decide
  | layer hl =>
    exfalso
    cases hp with
    | storage => simp at hlen; omega
    | sandbox => simp at hlen
    | data => simp at hlen
    | layer => simp at hlen

theorem owned_unique {s : StartFiles} {fs : FS} (hn : ∀ m ∈ s.mounts, ∀ m' ∈ s.mounts, m.hash = m'.hash → m.dir = m'.dir) {p q : Path} {u g u' g' : Nat}
    (h : OwnerOf s fs p u g) (h' : OwnerOf s fs q u' g') (he : p = q) : u = u' ∧ g = g' := by
  have hlen := congrArg List.length he
  cases h with
  | storage => cases h' with
    | layer => simp at hlen
    | _ => exact ⟨rfl, rfl⟩
  | sandbox => cases h' with
    | layer => simp at hlen
    | _ => exact ⟨rfl, rfl⟩
  | data => cases h' with
    | layer => simp at hlen
    | _ => exact ⟨rfl, rfl⟩
  | layer hl hm hg => cases h' with
    | layer hl' hm' hg' =>
      have := List.append_cancel_left he
      simp only [List.cons.injEq, true_and, and_true] at this
      have hd := hn _ hm _ hm' this.2
      rw [hd] at hg
      rw [hg] at hg'
      cases hg'
      exact ⟨rfl, rfl⟩
    | _ => simp at hlen

/-- What holds at each point of a start that goes well. -/
structure Going (s : StartFiles) (fs x : FS) : Prop where
  good : Good s fs x
  dirs : Dirs s x
  files : ∀ p n, StartFile s p → x.get p = some n → n.isReg = true
  owners : ∀ p u g n, OwnerOf s fs p u g → x.get p = some n → n.uid = u ∧ n.gid = g

theorem Going.file_step {s : StartFiles} {fs x y : FS} (h : Going s fs x) (g : Good s x y) (hd : ∀ p, StartDir s p → y.get p = x.get p) : Going s fs y := by
  refine ⟨h.good.trans g, h.dirs.good g, ?_, ?_⟩
  · intro p n hp hg
    rcases g.keeps.made p n hg with h1 | ⟨h1, _⟩ | ⟨_, h1⟩
    · exact h.files p n hp h1
    · exact absurd hp (dir_not_file h1)
    · exact h1
  · intro p u g' n ho hg
    rw [hd p (owned_dir ho)] at hg
    exact h.owners p u g' n ho hg

theorem mk_step {s : StartFiles} {fs x : FS} (hcs : CanStart s fs) (h : Going s fs x) {p : Path} {u g : Nat} (ho : OwnerOf s fs p u g)
    (h1 : p ≠ s.storage → ∃ n, x.get s.storage = some n) (h2 : p ≠ s.storage → p ≠ s.storage ++ [s.name] → ∃ n, x.get (s.storage ++ [s.name]) = some n) :
    (mkdirOwned x p u g).err = none ∧ Going s fs (mkdirOwned x p u g).fs ∧ Good s x (mkdirOwned x p u g).fs ∧ ∃ n, (mkdirOwned x p u g).fs.get p = some n := by
  have hp := owned_dir ho
  obtain ⟨he, n, hn, hd, hu⟩ := mkdirOwned_done h.good.wf h.good.clear h.dirs hp (fun n hn => h.owners p u g n ho hn)
  have g1 := (mkdirOwned_good h.good.wf h.good.clear hp u g).2
  refine ⟨he, ⟨h.good.trans g1, h.dirs.good g1, ?_, ?_⟩, g1, n, hn⟩
  · intro q m hq hg
    rcases g1.keeps.made q m hg with h3 | ⟨h3, _⟩ | ⟨_, h3⟩
    · exact h.files q m hq h3
    · exact absurd hq (dir_not_file h3)
    · exact h3
  · intro q u' g' m hq hg
    have hqf := dir_not_file (owned_dir hq)
    by_cases hqp : q = p
    · subst hqp
      rw [hn] at hg; cases hg
      obtain ⟨rfl, rfl⟩ := owned_unique hcs.names ho hq rfl
      exact hu
    · cases hx : x.get q with
      | some k =>
        rw [g1.keeps.kept q k hx (fun e => hqf (.inr (.inl e))) (fun e => hqf (.inr (.inr e)))] at hg
        cases hg
        exact h.owners q u' g' _ hq hx
      | none =>
        by_cases hpre : q <+: p
        · rcases owned_below hq ho (below_iff.2 ⟨hpre, hqp⟩) with ⟨rfl, h3⟩ | ⟨rfl, h3, h4⟩
          · obtain ⟨k, hk⟩ := h1 h3; rw [hx] at hk; cases hk
          · obtain ⟨k, hk⟩ := h2 h3 h4; rw [hx] at hk; cases hk
        · have hg2 := mkdirOwned_only h.good.wf h.good.clear hp u g q hpre
          rw [hg, hx] at hg2; cases hg2

theorem write_step {s : StartFiles} {fs x : FS} (h : Going s fs x) {p : Path} (hp : StartFile s p) (hl : p ≠ lockOf s) (hpar : x.isDirAt p.dropLast = true) (text : Str) :
    (writeThrough x 40 p text).err = none ∧ Going s fs (writeThrough x 40 p text).fs ∧ Good s x (writeThrough x 40 p text).fs ∧
      (∃ n, (writeThrough x 40 p text).fs.get p = some n ∧ n.kind = .reg text) ∧ ∀ q, q ≠ p → (writeThrough x 40 p text).fs.get q = x.get q := by
  have hN := normal_file h.good.clear hp
  have hne : p ≠ [] := by rintro rfl; rcases hp with h | h | h <;> simp [lockOf, pidOf, settingsFile] at h
  have g1 := (writeThrough_good h.good.wf h.good.clear hp hl 40 text).2
  have hch : x.Chain p := by
    obtain ⟨n, hn, _⟩ := FS.isDirAt_iff.1 hpar
    intro q hq
    have := prefix_dropLast_of_below hq
    by_cases he : q = p.dropLast
    · rw [he]; exact hpar
    · exact h.good.wf.ancestor hn (below_iff.2 ⟨this, he⟩)
  have hlast : p.getLast? ≠ some ['.', '.'] := by
    intro hl
    exact (hN _ (List.mem_of_getLast? hl)).2.2.2 rfl
  have hval : ∃ n : Node, n.kind = .reg text ∧ (writeThrough x 40 p text).err = none ∧ (writeThrough x 40 p text).fs = x.set p n := by
    unfold writeThrough
    rw [FS.canon_chain hN hch]
    simp only [hlast, if_false]
    cases hg : x.get p with
    | none => exact ⟨_, rfl, rfl, rfl⟩
    | some n =>
      have := h.files p n hp hg
      unfold Node.isReg at this
      cases hk : n.kind <;> rw [hk] at this <;> simp only [Kind.isReg, Bool.false_eq_true] at this
      refine ⟨{ n with kind := .reg text }, rfl, ?_, ?_⟩ <;> simp only [hk]
  obtain ⟨n, hk, he, hf⟩ := hval
  rw [hf] at g1 ⊢
  refine ⟨he, h.file_step g1 (fun q hq => ?_), g1, ⟨n, by rw [FS.get_set, if_pos rfl], hk⟩, fun q hq => ?_⟩
  · rw [FS.get_set, if_neg (by rintro rfl; exact dir_not_file hq hp)]
  · rw [FS.get_set, if_neg (Ne.symm hq)]

/-- A step that goes well and what is known after it. -/
theorem andThen_ok {t : Passed} {k : FS → Passed} (h : t.err = none) : (t.andThen k).err = (k t.fs).err ∧ (t.andThen k).fs = (k t.fs).fs := by
  unfold Passed.andThen
  rw [h]
  exact ⟨rfl, rfl⟩

theorem lock_step {s : StartFiles} {fs x : FS} (h : Going s fs x) (hst : ∃ n, x.get s.storage = some n) :
    (prepareLock s.storage s.name x).err = none ∧ Going s fs (prepareLock s.storage s.name x).fs ∧ Good s x (prepareLock s.storage s.name x).fs := by
  obtain ⟨ns, hns⟩ := hst
  have hsd : x.isDirAt s.storage = true := FS.isDirAt_iff.2 ⟨ns, hns, h.dirs _ _ (.storage (List.prefix_refl _)) hns⟩
  have g1 := (prepareLock_good h.good.wf h.good.clear).2
  have hN := normal_file h.good.clear (p := lockOf s) (.inl rfl)
  have hopen : ∃ y, openLock x (lockFile s.storage s.name) = .ok y ∧ ∀ q, q ≠ lockOf s → y.get q = x.get q := by
    have hpe := pexists_child h.good.wf hsd (normal_lock h.good.clear.name.2.1) (fun n hn => h.good.clear.links _ n (.inr (.inl rfl)) hn)
    change ∃ y, openLock x (s.storage ++ [s.name ++ str ".lock"]) = .ok y ∧ _
    unfold openLock
    rw [hpe]
    cases hg : x.get (s.storage ++ [s.name ++ str ".lock"]) with
    | some n =>
      simp only [Option.isSome_some, if_true]
      have hreg := h.files (lockOf s) n (.inl rfl) hg
      have hnd : x.pisDir (s.storage ++ [s.name ++ str ".lock"]) = false := by
        unfold FS.pisDir
        have hN : NormalPath (s.storage ++ [s.name ++ str ".lock"]) := hN
        rw [FS.stat_chain hN h.good.wf.root (chain_child h.good.wf hsd _) (fun n hn => h.good.clear.links _ n (.inr (.inl rfl)) hn), hg]
        unfold Node.isReg at hreg
        simp only [Node.isDir]
        cases hk : n.kind <;> rw [hk] at hreg <;> simp [Kind.isReg] at hreg ⊢
      rw [hnd]
      exact ⟨x, by simp, fun _ _ => rfl⟩
    | none =>
      simp only [Option.isSome_none, Bool.false_eq_true, if_false]
      have hcan : x.canon (s.storage ++ [s.name ++ str ".lock"]) = .ok (lockOf s) := FS.canon_chain hN (chain_child h.good.wf hsd _)
      rw [hcan]
      simp only [lockOf, hg]
      refine ⟨_, rfl, fun q hq => ?_⟩
      rw [FS.get_set, if_neg]
      exact fun e => hq (e ▸ rfl)
  obtain ⟨y, hy, hyk⟩ := hopen
  have hval : (prepareLock s.storage s.name x).err = none ∧ ∀ q, StartDir s q → (prepareLock s.storage s.name x).fs.get q = x.get q := by
    have hyg : Good s x y := by
      have := (prepareLock_good h.good.wf h.good.clear).1 y
      refine this ?_
      unfold prepareLock
      rw [hy]
      simp [oneCall, Passed.andThen]
    unfold prepareLock
    rw [hy]
    have hval : (⟨[y], y, none⟩ : Passed).err = none := rfl
    simp only [oneCall]
    rw [(andThen_ok hval).1, (andThen_ok hval).2]
    split
    · split
      · next z hz =>
        have hp : StartFile s (pidOf s) := .inr (.inl rfl)
        obtain ⟨rfl, _, _⟩ := FS.unlink_plain hyg.wf (normal_file hyg.clear hp) (above_file hyg.clear hp) hz
        refine ⟨rfl, fun q hq => ?_⟩
        simp only
        rw [FS.get_del, if_neg (by rintro rfl; exact dir_not_file hq hp)]
        exact hyk q (by rintro rfl; exact dir_not_file hq (.inl rfl))
      · exact ⟨rfl, fun q hq => hyk q (by rintro rfl; exact dir_not_file hq (.inl rfl))⟩
    · exact ⟨rfl, fun q hq => hyk q (by rintro rfl; exact dir_not_file hq (.inl rfl))⟩
  exact ⟨hval.1, h.file_step g1 hval.2, g1⟩

theorem Good.some {s : StartFiles} {x y : FS} (g : Good s x y) {p : Path} (hp : StartDir s p) (h : ∃ n, x.get p = some n) : ∃ n, y.get p = some n := by
  obtain ⟨n, hn⟩ := h
  have hf := dir_not_file hp
  exact ⟨n, g.keeps.kept p n hn (fun e => hf (.inr (.inl e))) (fun e => hf (.inr (.inr e)))⟩

theorem mount_step {s : StartFiles} {fs x : FS} (hcs : CanStart s fs) (h : Going s fs x) {m : MountHash} (hm : m ∈ s.mounts) (h1 : ∃ n, x.get s.storage = some n)
    (h2 : ∃ n, x.get (s.storage ++ [s.name]) = some n) :
    (prepareMount (s.storage ++ [s.name]) m x).err = none ∧ Going s fs (prepareMount (s.storage ++ [s.name]) m x).fs ∧ Good s x (prepareMount (s.storage ++ [s.name]) m x).fs ∧
      ∀ l ∈ [str "work", str "upper", str "overlay"], ∃ n, (prepareMount (s.storage ++ [s.name]) m x).fs.get (s.storage ++ [s.name, l, m.hash]) = some n := by
  have e : ∀ l, s.storage ++ [s.name] ++ [l, m.hash] = s.storage ++ [s.name, l, m.hash] := by simp
  obtain ⟨hNm, n, hn, hnd⟩ := hcs.mounts m hm
  have hnf : ¬ StartFile s m.dir := by
    intro hf
    have := hcs.files _ n hf hn
    unfold Node.isReg at this
    unfold Node.isDir at hnd
    have hk : n.kind = .dir := by simpa using hnd
    rw [hk] at this
    cases this
  have hnx : x.get m.dir = some n := h.good.keeps.kept _ n hn (fun e => hnf (.inr (.inl e))) (fun e => hnf (.inr (.inr e)))
  have hl : x.lstat m.dir = .ok n := by rw [FS.lstat_chain hNm (h.good.wf.chain hnx), hnx]
  have own : ∀ l ∈ [str "work", str "upper", str "overlay"], OwnerOf s fs (s.storage ++ [s.name, l, m.hash]) n.uid n.gid := fun l hl => .layer hl hm hn
  unfold prepareMount
  simp only [hl, e]
  obtain ⟨a1, a2, a3, a4⟩ := mk_step hcs h (own (str "work") (by simp)) (fun _ => h1) (fun _ _ => h2)
  have b1 := a3.some (.storage (List.prefix_refl _)) h1
  have b2 := a3.some .sandbox h2
  obtain ⟨c1, c2, c3, c4⟩ := mk_step hcs a2 (own (str "upper") (by simp)) (fun _ => b1) (fun _ _ => b2)
  have d1 := c3.some (.storage (List.prefix_refl _)) b1
  have d2 := c3.some .sandbox b2
  obtain ⟨e1, e2, e3, e4⟩ := mk_step hcs c2 (own (str "overlay") (by simp)) (fun _ => d1) (fun _ _ => d2)
  rw [(andThen_ok a1).1, (andThen_ok a1).2, (andThen_ok c1).1, (andThen_ok c1).2]
  refine ⟨e1, e2, (a3.trans c3).trans e3, ?_⟩
  intro l hl
  simp only [List.mem_cons, List.not_mem_nil, or_false] at hl
  rcases hl with rfl | rfl | rfl
  · exact e3.some (.layer (by simp) hm) (c3.some (.layer (by simp) hm) a4)
  · exact e3.some (.layer (by simp) hm) c4
  · exact e4

theorem mounts_step {s : StartFiles} {fs : FS} (hcs : CanStart s fs) : ∀ (ms : List MountHash) {x : FS}, Going s fs x → (∀ m ∈ ms, m ∈ s.mounts) → (∃ n, x.get s.storage = some n) →
    (∃ n, x.get (s.storage ++ [s.name]) = some n) →
    (prepareMounts (s.storage ++ [s.name]) ms x).err = none ∧ Going s fs (prepareMounts (s.storage ++ [s.name]) ms x).fs ∧ Good s x (prepareMounts (s.storage ++ [s.name]) ms x).fs ∧
      ∀ m ∈ ms, ∀ l ∈ [str "work", str "upper", str "overlay"], ∃ n, (prepareMounts (s.storage ++ [s.name]) ms x).fs.get (s.storage ++ [s.name, l, m.hash]) = some n
  | [], x, h, _, _, _ => ⟨rfl, h, Good.refl h.good.wf h.good.clear, fun m hm => by cases hm⟩
  | m :: ms, x, h, hm, h1, h2 => by
    obtain ⟨a1, a2, a3, a4⟩ := mount_step hcs h (hm m (by simp)) h1 h2
    obtain ⟨b1, b2, b3, b4⟩ := mounts_step hcs ms a2 (fun k hk => hm k (by simp [hk])) (a3.some (.storage (List.prefix_refl _)) h1) (a3.some .sandbox h2)
    unfold prepareMounts
    rw [(andThen_ok a1).1, (andThen_ok a1).2]
    refine ⟨b1, b2, a3.trans b3, ?_⟩
    intro k hk l hl
    rcases List.mem_cons.1 hk with rfl | hk
    · exact b3.some (.layer hl (hm k (by simp))) (a4 l hl)
    · exact b4 k hk l hl

theorem start_steps {s : StartFiles} {fs : FS} (hw : fs.WF) (hcs : CanStart s fs) :
    (prepareStart fs s).err = none ∧ Going s fs (prepareStart fs s).fs ∧ (∀ p u g, OwnerOf s fs p u g → ∃ n, (prepareStart fs s).fs.get p = some n) ∧
      (∃ n, (prepareStart fs s).fs.get (settingsFile s) = some n ∧ n.kind = .reg s.text) ∧ ∃ n, (prepareStart fs s).fs.get (pidOf s) = some n ∧ n.kind = .reg (toString s.pid).toList := by
  have i0 : Going s fs fs := ⟨Good.refl hw hcs.clear, hcs.dirs, hcs.files, hcs.owners⟩
  unfold prepareStart
  rw [sandboxDir_normal hcs.clear.name]
  simp only [List.append_assoc, List.cons_append, List.nil_append]
  obtain ⟨a1, a2, a3, a4⟩ := mk_step hcs i0 .storage (fun h => absurd rfl h) (fun h => absurd rfl h)
  rw [(andThen_ok a1).1, (andThen_ok a1).2]
  obtain ⟨b1, b2, b3⟩ := lock_step a2 a4
  rw [(andThen_ok b1).1, (andThen_ok b1).2]
  have s1 := b3.some (.storage (List.prefix_refl _)) a4
  obtain ⟨c1, c2, c3, c4⟩ := mk_step hcs b2 .sandbox (fun _ => s1) (fun _ h => absurd rfl h)
  rw [(andThen_ok c1).1, (andThen_ok c1).2]
  have s2 := c3.some (.storage (List.prefix_refl _)) s1
  obtain ⟨d1, d2, d3, d4⟩ := mk_step hcs c2 .data (fun _ => s2) (fun _ _ => c4)
  rw [(andThen_ok d1).1, (andThen_ok d1).2]
  have s3 := d3.some (.storage (List.prefix_refl _)) s2
  have n3 := d3.some .sandbox c4
  obtain ⟨e1, e2, e3, e4⟩ := mounts_step hcs s.mounts d2 (fun m hm => hm) s3 n3
  rw [(andThen_ok e1).1, (andThen_ok e1).2]
  have s4 := e3.some (.storage (List.prefix_refl _)) s3
  have n4 := e3.some .sandbox n3
  have t4 := e3.some .data d4
  have isDir : ∀ {x : FS} {p : Path}, Going s fs x → StartDir s p → (∃ n, x.get p = some n) → x.isDirAt p = true := fun i hp ⟨n, hn⟩ =>
    FS.isDirAt_iff.2 ⟨n, hn, i.dirs _ n hp hn⟩
  have ne : ∀ {a b : Path}, a.length ≠ b.length → a ≠ b := fun h e => h (congrArg _ e)
  have hdl : (settingsFile s).dropLast = s.storage ++ [s.name, str "data"] := by
    rw [settingsFile, show s.storage ++ [s.name, str "data", str "settings.json"] = (s.storage ++ [s.name, str "data"]) ++ [str "settings.json"] by simp, List.dropLast_concat]
  obtain ⟨f1, f2, f3, f4, f5⟩ := write_step e2 (p := settingsFile s) (.inr (.inr rfl)) (ne (by simp [settingsFile, lockOf])) (by rw [hdl]; exact isDir e2 .data t4) s.text
  have hset : s.storage ++ [s.name, str "data", str "settings.json"] = settingsFile s := rfl
  rw [hset, (andThen_ok f1).1, (andThen_ok f1).2]
  have s5 := f3.some (.storage (List.prefix_refl _)) s4
  obtain ⟨g1, g2, g3, g4, g5⟩ := write_step f2 (p := pidOf s) (.inr (.inl rfl)) (by
    intro h
    have := List.append_cancel_left h
    simp [str] at this) (by rw [pidOf, List.dropLast_concat]; exact isDir f2 (.storage (List.prefix_refl _)) s5) (toString s.pid).toList
  rw [show pidFile s.storage s.name = pidOf s from rfl]
  refine ⟨g1, g2, ?_, ?_, g4⟩
  · intro p u g ho
    refine g3.some (owned_dir ho) (f3.some (owned_dir ho) ?_)
    cases ho with
    | storage => exact s4
    | sandbox => exact n4
    | data => exact t4
    | layer hl hm _ => exact e4 _ hm _ hl
  · rw [g5 _ (ne (by simp [settingsFile, pidOf]))]
    exact f4

end Prep

/-- **C73**: a sandbox can be started if all that is already at its places is what belongs there; then its directories are there with the right owners, and the settings and
the number of its first process are recorded. -/
theorem C73_start (fs : FS) (hw : fs.WF) (s : StartFiles) (h : Spec.CanStart s fs) :
    (prepareStart fs s).err = none ∧
    (∀ p u g, Spec.OwnerOf s fs p u g → ∃ n, (prepareStart fs s).fs.get p = some n ∧ n.isDir = true ∧ n.uid = u ∧ n.gid = g) ∧
    (∃ n, (prepareStart fs s).fs.get (Spec.settingsFile s) = some n ∧ n.kind = .reg s.text) ∧
    ∃ n, (prepareStart fs s).fs.get (Spec.pidOf s) = some n ∧ n.kind = .reg (toString s.pid).toList := by
  obtain ⟨h1, h2, h3, h4, h5⟩ := Prep.start_steps hw h
  refine ⟨h1, fun p u g ho => ?_, h4, h5⟩
  obtain ⟨n, hn⟩ := h3 p u g ho
  exact ⟨n, hn, h2.dirs p n (Prep.owned_dir ho) hn, h2.owners p u g n ho hn⟩

/-- **C73** (partial): after a start, however the files of the sandbox and of the host have changed since - as long as the directories made by the start that are still there
are directories with the same owners, and the mounts' directories have their owners - the sandbox can be started again, with any settings. -/
theorem C73_again_partial (fs : FS) (hw : fs.WF) (s : StartFiles) (h : Spec.CanStart s fs) (fs2 : FS) (hw2 : fs2.WF)
    (hd : ∀ p n2, Spec.StartDir s p → fs2.get p = some n2 → ∃ n, (prepareStart fs s).fs.get p = some n ∧ n2.isDir = n.isDir ∧ n2.uid = n.uid ∧ n2.gid = n.gid)
    (hf : ∀ p n, Spec.StartFile s p → fs2.get p = some n → n.isReg = true)
    (hm : ∀ m ∈ s.mounts, ∃ n n2, fs.get m.dir = some n ∧ fs2.get m.dir = some n2 ∧ n2.isDir = true ∧ n2.uid = n.uid ∧ n2.gid = n.gid) (text : Str) (pid : Nat) :
    (prepareStart fs2 { s with text := text, pid := pid }).err = none := by
  obtain ⟨_, i, _⟩ := Prep.start_steps hw h
  have hdir : ∀ p, Spec.StartDir { s with text := text, pid := pid } p → Spec.StartDir s p := by
    intro p hp
    cases hp with
    | storage hp => exact .storage hp
    | sandbox => exact .sandbox
    | data => exact .data
    | layers hl => exact .layers hl
    | layer hl hm => exact .layer hl hm
  have isd : ∀ p n, Spec.StartDir s p → fs2.get p = some n → n.isDir = true := by
    intro p n hp hg
    obtain ⟨k, hk, h1, _⟩ := hd p n hp hg
    rw [h1]
    exact i.dirs p k hp hk
  refine (C73_start fs2 hw2 { s with text := text, pid := pid } ⟨⟨h.clear.storage, h.clear.name, h.clear.hashes, ?_⟩, fun p n hp => isd p n (hdir p hp), hf, ?_, h.names, ?_⟩).1
  · rintro p n (hp | hp) hg
    · have := isd p n (hdir p hp) hg
      have hk : n.kind = .dir := by simpa [Node.isDir] using this
      simp [Node.isLnk, hk, Kind.isLnk]
    · have := hf p n hp hg
      unfold Node.isReg at this
      unfold Node.isLnk
      cases hk : n.kind <;> rw [hk] at this <;> simp [Kind.isReg, Kind.isLnk] at this ⊢
  · intro m hm'
    obtain ⟨n, n2, _, h2, h3, _⟩ := hm m hm'
    exact ⟨(h.mounts m hm').1, n2, h2, h3⟩
  · intro p u g n ho hg
    have own : Spec.OwnerOf s fs p u g := by
      cases ho with
      | storage => exact .storage
      | sandbox => exact .sandbox
      | data => exact .data
      | @layer l m k hl hm' hk =>
        obtain ⟨n1, n2, h1, h2, _, h4, h5⟩ := hm m hm'
        rw [hk] at h2; cases h2
        rw [h4, h5]
        exact .layer hl hm' h1
    obtain ⟨k, hk, _, h1, h2⟩ := hd p n (Prep.owned_dir own) hg
    rw [h1, h2]
    exact i.owners p u g k own hk

/-- Non-vacuity: a first start, and a start with the storage of an earlier one. -/
theorem exPrep_can (more : FS) (h1 : more = [] ∨ more = exPrepOld) : Spec.CanStart exPrep (exPrepFs more) := by
  have hw : ∀ e ∈ exPrepFs more, e.2.isLnk = false := by rcases h1 with rfl | rfl <;> decide +kernel
  have hclear : Spec.StartClear exPrep (exPrepFs more) := Prep.clear_of_check _ _ (by decide) (by decide) (by decide) hw
  have hreg : ∀ e ∈ exPrepFs more, e.2.isReg = true → ¬ (e.1 <+: exPrep.storage) ∧ e.1 ≠ exPrep.storage ++ [exPrep.name] ∧ (∀ l ∈ [str "data", str "work", str "upper", str "overlay"],
      e.1 ≠ exPrep.storage ++ [exPrep.name, l] ∧ ∀ m ∈ exPrep.mounts, e.1 ≠ exPrep.storage ++ [exPrep.name, l, m.hash]) := by rcases h1 with rfl | rfl <;> decide +kernel
  have hkind : ∀ e ∈ exPrepFs more, e.2.isReg = true ∨ e.2.isDir = true := by rcases h1 with rfl | rfl <;> decide +kernel
  have hfile : ∀ e ∈ exPrepFs more, e.2.isDir = true → e.1 ≠ Spec.lockOf exPrep ∧ e.1 ≠ Spec.pidOf exPrep ∧ e.1 ≠ Spec.settingsFile exPrep := by rcases h1 with rfl | rfl <;> decide +kernel
  have hown : (∀ e ∈ exPrepFs more, (e.1 = exPrep.storage ∨ e.1 = exPrep.storage ++ [exPrep.name] ∨ e.1 = exPrep.storage ++ [exPrep.name, str "data"]) → e.2.uid = 1000 ∧ e.2.gid = 1000) ∧
      ∀ e ∈ exPrepFs more, ∀ l ∈ [str "work", str "upper", str "overlay"], ∀ m ∈ exPrep.mounts, e.1 = exPrep.storage ++ [exPrep.name, l, m.hash] →
        ∀ f ∈ exPrepFs more, f.1 = m.dir → e.2.uid = f.2.uid ∧ e.2.gid = f.2.gid := by rcases h1 with rfl | rfl <;> exact ⟨by decide +kernel, by decide +kernel⟩
  have hmnt : ∀ m ∈ exPrep.mounts, NormalPath m.dir ∧ (exPrepFs more).isDirAt m.dir = true := by rcases h1 with rfl | rfl <;> decide +kernel
  refine ⟨hclear, ?_, ?_, ?_, by decide, ?_⟩
  · intro p n hp hg
    have hm := FS.mem_of_get hg
    rcases hkind _ hm with h | h
    · obtain ⟨h2, h3, h4⟩ := hreg _ hm h
      exfalso
      cases hp with
      | storage hp => exact h2 hp
      | sandbox => exact h3 rfl
      | data => exact (h4 (str "data") (by simp)).1 rfl
      | layers hl => exact (h4 _ (List.mem_cons_of_mem _ hl)).1 rfl
      | layer hl hmm => exact (h4 _ (List.mem_cons_of_mem _ hl)).2 _ hmm rfl
    · exact h
  · intro p n hp hg
    have hm := FS.mem_of_get hg
    rcases hkind _ hm with h | h
    · exact h
    · obtain ⟨h2, h3, h4⟩ := hfile _ hm h
      rcases hp with hp | hp | hp
      · exact absurd hp h2
      · exact absurd hp h3
      · exact absurd hp h4
  · intro m hm
    exact ⟨(hmnt m hm).1, FS.isDirAt_iff.1 (hmnt m hm).2⟩
  · intro p u g n ho hg
    have hm := FS.mem_of_get hg
    cases ho with
    | storage => exact hown.1 _ hm (.inl rfl)
    | sandbox => exact hown.1 _ hm (.inr (.inl rfl))
    | data => exact hown.1 _ hm (.inr (.inr rfl))
    | layer hl hmm hk => exact hown.2 _ hm _ hl _ hmm rfl _ (FS.mem_of_get hk) rfl

/-- Non-vacuity of `C73_again_partial`: the sandbox of the first start is stopped and started again. -/
example : (prepareStart (prepareStart (exPrepFs []) exPrep).fs { exPrep with text := str "[]", pid := 43 }).err = none := by
  have h := exPrep_can [] (.inl rfl)
  have hw : (exPrepFs []).WF := by decide +kernel
  obtain ⟨_, i, _⟩ := Prep.start_steps hw h
  refine C73_again_partial _ hw exPrep h _ i.good.wf (fun p n2 _ hg => ⟨n2, hg, rfl, rfl, rfl⟩) i.files ?_ _ _
  have : ∀ m ∈ exPrep.mounts, (exPrepFs []).get m.dir = (prepareStart (exPrepFs []) exPrep).fs.get m.dir := by decide +kernel
  intro m hm
  obtain ⟨_, n, hn, hd⟩ := h.mounts m hm
  exact ⟨n, n, hn, by rw [← this m hm, hn], hd, rfl, rfl⟩

/-- **C73 refuted**: `chown` of a mount's top directory in the sandbox (here by the user's root shell in it, of `/h` to user 5) changes the owner of the stored directory; after
the sandbox has been stopped it can not be started again. -/
theorem C73_refuted_chown :
    let before := (prepareStart (exPrepFs []) exPrep).fs
    let after := before.set [str "s", str "n", str "upper", str "F5UA"] { kind := .dir, uid := 5, gid := 1000, perm := 0o755 }
    (prepareStart (exPrepFs []) exPrep).err = none ∧ after.WF ∧ (prepareStart after exPrep).err = some .owner := by decide +kernel

/-- **C73 refuted**: if the tool is killed between making a directory and giving it its owner, the sandbox can not be started any more. -/
theorem C73_refuted_killed : ∃ x ∈ (prepareStart (exPrepFs []) exPrep).states, (prepareStart x exPrep).err = some .owner := by
  refine ⟨(prepareStart (exPrepFs []) exPrep).states[2]!, ?_, by decide +kernel⟩
  have h : 2 < (prepareStart (exPrepFs []) exPrep).states.length := by decide +kernel
  rw [getElem!_pos _ 2 h]
  exact List.getElem_mem h

/-! ## C74 -/

/-- The storage of the sandbox as overlayfs sees it after the start: the host and what is below `upper`. -/
structure Spec.Staged (s : StartFiles) (fs : FS) (st : State) : Prop where
  lower : st.lower = fs
  upper : ∀ q, st.upper.get q = fs.get (s.storage ++ [s.name, str "upper"] ++ q)

theorem Prep.view_empty {s : StartFiles} {fs : FS} {st : State} (hw : fs.WF) (hst : Spec.Staged s fs st) {h : Name} {mp : Path} (hmp : fs.isDirAt mp = true)
    (hempty : ∀ sub : Path, sub ≠ [] → fs.get (s.storage ++ [s.name, str "upper"] ++ h :: sub) = none) (sub : Path) (hsub : sub ≠ []) :
    Spec.view st h mp sub = fs.get (mp ++ sub) := by
  have hup : ∀ q : Path, q ≠ [] → st.upper.get (h :: q) = none := fun q hq => by rw [hst.upper]; exact hempty q hq
  obtain ⟨nm, hnm, _⟩ := FS.isDirAt_iff.1 hmp
  have key : ∀ r : Path, r ≠ [] → Spec.lookupRev st h mp r = (Spec.present fs (mp ++ r.reverse)).map (fun p => ⟨none, some p⟩) := by
    intro r
    induction r with
    | nil => intro h; exact absurd rfl h
    | cons x r ih =>
      intro _
      unfold Spec.lookupRev
      have hnone : st.upper.get (h :: (x :: r).reverse) = none := hup _ (by simp)
      by_cases hr : r = []
      · subst hr
        simp only [Spec.lookupRev]
        simp only [List.reverse_cons, List.reverse_nil, List.nil_append] at hnone ⊢
        rw [hnone]
        simp only [ite_self, Spec.lowerName, Option.map_some, Option.bind_some, hst.lower]
        cases Spec.present fs (mp ++ [x]) <;> rfl
      · rw [ih hr]
        cases hp : Spec.present fs (mp ++ r.reverse) with
        | none =>
          have hg : fs.get (mp ++ r.reverse) = none := by
            unfold Spec.present at hp
            cases hg : fs.get (mp ++ r.reverse) with
            | none => rfl
            | some n => rw [hg] at hp; simp at hp
          have hg2 : fs.get (mp ++ (x :: r).reverse) = none := hw.none_below hg ⟨[x], by simp, by simp⟩
          rw [List.reverse_cons] at hg2
          simp only [Option.map_none, List.reverse_cons]
          rw [Spec.present, hg2]
          rfl
        | some p =>
          have hpe : p = mp ++ r.reverse := by
            unfold Spec.present at hp
            split at hp
            · cases hp; rfl
            · cases hp
          subst hpe
          simp only [Option.map_some, Option.any_none, Bool.false_eq_true, if_false, Spec.lowerName, Option.bind_some, hst.lower, List.append_assoc, List.reverse_cons]
          cases Spec.present fs (mp ++ (r.reverse ++ [x])) <;> rfl
  unfold Spec.view Spec.lookup
  rw [key sub.reverse (by simpa using hsub), List.reverse_reverse]
  unfold Spec.present
  cases hg : fs.get (mp ++ sub) with
  | none => simp
  | some n => simp [hg, hst.lower]

/-- **C74** (partial): in a new sandbox every path below a mount's top directory is seen exactly as it is on the host, and the top directory as a directory of the same owner.
Missing: the mode of the top directory (refuted below). -/
theorem C74_new_partial (fs : FS) (hw : fs.WF) (s : StartFiles) (h : Spec.CanStart s fs) (hnew : ∀ p, s.storage ++ [s.name] <+: p → fs.get p = none) (st : State)
    (hst : Spec.Staged s (prepareStart fs s).fs st) (m : MountHash) (hm : m ∈ s.mounts) :
    (∀ sub, sub ≠ [] → Spec.view st m.hash m.dir sub = (prepareStart fs s).fs.get (m.dir ++ sub)) ∧
    (∀ sub, ¬ Spec.StartDir s (m.dir ++ sub) → ¬ Spec.StartFile s (m.dir ++ sub) → sub ≠ [] → Spec.view st m.hash m.dir sub = fs.get (m.dir ++ sub)) ∧
    ∃ n r, fs.get m.dir = some n ∧ Spec.view st m.hash m.dir [] = some r ∧ r.kind = .dir ∧ r.uid = n.uid ∧ r.gid = n.gid := by
  obtain ⟨_, i, h3, _⟩ := Prep.start_steps hw h
  have hk := i.good.keeps
  obtain ⟨_, n, hn, hnd⟩ := h.mounts m hm
  have hnf : ¬ Spec.StartFile s m.dir := by
    intro hf
    have := h.files _ n hf hn
    have hkd : n.kind = .dir := by simpa [Node.isDir] using hnd
    simp [Node.isReg, hkd, Kind.isReg] at this
  have hn1 : (prepareStart fs s).fs.get m.dir = some n := hk.kept _ n hn (fun e => hnf (.inr (.inl e))) (fun e => hnf (.inr (.inr e)))
  have hempty : ∀ sub : Path, sub ≠ [] → (prepareStart fs s).fs.get (s.storage ++ [s.name, str "upper"] ++ m.hash :: sub) = none := by
    intro sub hsub
    have hlen := List.length_pos_of_ne_nil hsub
    have len : ∀ {a b : Path}, a = b → a.length = b.length := fun h => congrArg _ h
    cases hg : (prepareStart fs s).fs.get (s.storage ++ [s.name, str "upper"] ++ m.hash :: sub) with
    | none => rfl
    | some k =>
      exfalso
      rcases hk.made _ k hg with h1 | ⟨h1, _⟩ | ⟨h1, _⟩
      · rw [hnew] at h1
        · cases h1
        · exact ⟨str "upper" :: m.hash :: sub, by simp⟩
      · generalize hp : s.storage ++ [s.name, str "upper"] ++ m.hash :: sub = p at h1
        have := len hp
        cases h1 with
        | storage h1 => have h2 := h1.length_le; simp at this; omega
        | sandbox => simp at this
        | data => simp at this
        | layers => simp at this
        | layer =>
          simp only [List.length_append, List.length_cons, List.length_nil] at this
          omega
      · rcases h1 with h1 | h1 | h1
        · have := len h1; simp [Spec.lockOf] at this
        · have := len h1; simp [Spec.pidOf] at this
        · rw [Spec.settingsFile, List.append_assoc] at h1
          have := List.append_cancel_left h1
          simp only [List.cons_append, List.nil_append, List.cons.injEq, true_and] at this
          exact absurd this.1 (by decide)
  have hview := fun sub hsub => Prep.view_empty i.good.wf hst (FS.isDirAt_iff.2 ⟨n, hn1, hnd⟩) hempty sub hsub
  refine ⟨hview, fun sub h1 h2 hsub => ?_, n, ?_⟩
  · rw [hview sub hsub, hk.outside _ h1 h2]
  · have ho : Spec.OwnerOf s fs (s.storage ++ [s.name, str "upper", m.hash]) n.uid n.gid := .layer (by simp) hm hn
    obtain ⟨r, hr⟩ := h3 _ _ _ ho
    have hrd := i.dirs _ r (Prep.owned_dir ho) hr
    have hru := i.owners _ _ _ r ho hr
    refine ⟨r, hn, ?_, by simpa [Node.isDir] using hrd, hru⟩
    unfold Spec.view Spec.lookup
    simp only [List.reverse_nil, Spec.lookupRev, Option.bind_some]
    rw [hst.upper]
    simp only [List.append_assoc, List.cons_append, List.nil_append]
    rw [hr]

/-- What is below `upper`, as a file system of its own. -/
def exStaged (fs : FS) : State := ⟨fs, fs.filterMap (fun e => if [str "s", str "n", str "upper"].isPrefixOf e.1 then some (e.1.drop 3, e.2) else none)⟩

/-- Non-vacuity: the first start of a sandbox. -/
example : (∀ e ∈ exPrepFs [], ¬ exPrep.storage ++ [exPrep.name] <+: e.1) ∧
    Spec.view (exStaged (prepareStart (exPrepFs []) exPrep).fs) (str "F5UA") [str "h"] [str "f"] = some { kind := .reg (str "old"), uid := 1000, gid := 1000, perm := 0o600, dev := 2 } := by
  decide +kernel

/-- **C74 refuted**: the top directory of a mount gets the mode 0755 in the sandbox whatever it is on the host: here a private directory becomes readable by all, and a
directory like `/tmp` (1777), if it is a mount, can not be written to by other users. -/
theorem C74_refuted_mode :
    (exPrepFs []).get [str "h"] = some { kind := .dir, uid := 1000, gid := 1000, perm := 0o700, dev := 2 } ∧
    Spec.view (exStaged (prepareStart (exPrepFs []) exPrep).fs) (str "F5UA") [str "h"] [] = some { kind := .dir, uid := 1000, gid := 1000, perm := 0o755 } := by decide +kernel

end SB
