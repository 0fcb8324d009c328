import Verif.Model.Sandboxes
import Verif.Lib.FSLemmas
import Verif.Lib.FSOps
import Verif.Lib.TextLemmas
import Verif.Props.RmdirRec

/-! # Lemmas about the files of sandboxes -/

namespace SB

theorem sandboxDir_normal {storage : Path} {name : Name} (h : NormalName name) : sandboxDir storage name = storage ++ [name] := by
  obtain ⟨h0, hs, hd, hdd⟩ := h
  have hh : name.head? ≠ some '/' := by
    intro he; apply hs; cases name with
    | nil => cases he
    | cons c r => simp only [List.head?_cons, Option.some.injEq] at he; simp [he]
  have hsp : splitSlash name = [name] := split_noSlash hs
  have hc : components name = [name] := by unfold components; rw [hsp]; simp [h0, hd]
  have hp : parsePath name = ⟨false, [name]⟩ := by
    unfold parsePath; rw [if_neg hh, hsp, hc]
    split
    · rename_i heq; exact absurd (by simpa using congrArg (·.head?) heq) hd
    · rfl
  simp [sandboxDir, hp, RPath.join, RPath.ofPath, hd]

theorem normal_ext {name : Name} (h : '/' ∉ name) (e : Str) (he : '/' ∉ e) (hl : 2 < e.length) : NormalName (name ++ e) := by
  refine ⟨?_, by simp [h, he], ?_, ?_⟩
  · intro heq; have := congrArg List.length heq; rw [List.length_append, List.length_nil] at this; omega
  · intro heq; have := congrArg List.length heq; simp at this; omega
  · intro heq; have := congrArg List.length heq; simp at this; omega

theorem normal_lock {name : Name} (h : '/' ∉ name) : NormalName (name ++ str ".lock") := normal_ext h _ (by decide) (by decide)
theorem normal_pid {name : Name} (h : '/' ∉ name) : NormalName (name ++ str ".pid") := normal_ext h _ (by decide) (by decide)

/-- A directory of the tree is reached through directories. -/
theorem chain_child {fs : FS} (hw : fs.WF) {d : Path} (hd : fs.isDirAt d = true) (x : Name) : fs.Chain (d ++ [x]) := by
  obtain ⟨n, hn, _⟩ := FS.isDirAt_iff.1 hd
  intro q hq
  have := prefix_dropLast_of_below hq
  rw [List.dropLast_concat] at this
  by_cases he : q = d
  · rw [he]; exact hd
  · exact hw.ancestor hn (below_iff.2 ⟨this, he⟩)

theorem normal_child {fs : FS} (hw : fs.WF) {d : Path} (hd : fs.isDirAt d = true) {x : Name} (hx : NormalName x) : NormalPath (d ++ [x]) := by
  obtain ⟨n, hn, _⟩ := FS.isDirAt_iff.1 hd
  exact (hw.normal_of_get hn).append (by intro y hy; simp at hy; rw [hy]; exact hx)

theorem canon_child {fs : FS} (hw : fs.WF) {d : Path} (hd : fs.isDirAt d = true) {x : Name} (hx : NormalName x) : fs.canon (d ++ [x]) = .ok (d ++ [x]) :=
  FS.canon_chain (normal_child hw hd hx) (chain_child hw hd x)

theorem unlink_child {fs gs : FS} (hw : fs.WF) {d : Path} (hd : fs.isDirAt d = true) {x : Name} (hx : NormalName x) (h : fs.unlink (d ++ [x]) = .ok gs) :
    ∃ n, fs.get (d ++ [x]) = some n ∧ n.isDir = false ∧ gs = fs.del (d ++ [x]) := by
  obtain ⟨c, n, hc, hg, hn, rfl⟩ := FS.unlink_ok h
  rw [canon_child hw hd hx] at hc
  cases hc
  exact ⟨n, hg, hn, rfl⟩

/-! ### What the commands touch -/

/-- A path that belongs to sandbox `n`. -/
def Owned (storage : Path) (n : Name) (q : Path) : Prop := storage ++ [n] <+: q ∨ q = lockFile storage n ∨ q = pidFile storage n

/-- `fs'` arises from `fs` by deleting files of sandboxes in `N` and creating lock files for them. -/
structure Touch (storage : Path) (N : Name → Prop) (fs fs' : FS) : Prop where
  wf : fs'.WF
  keep : ∀ q, fs'.get q = fs.get q ∨ ∃ n, N n ∧ ((Owned storage n q ∧ fs'.get q = none) ∨ (q = lockFile storage n ∧ ∃ m, fs'.get q = some m ∧ m.kind = .reg []))

theorem Touch.refl {storage : Path} {N : Name → Prop} {fs : FS} (h : fs.WF) : Touch storage N fs fs := ⟨h, fun _ => .inl rfl⟩

theorem Touch.trans {storage : Path} {N : Name → Prop} {a b c : FS} (h1 : Touch storage N a b) (h2 : Touch storage N b c) : Touch storage N a c := by
  refine ⟨h2.wf, fun q => ?_⟩
  rcases h2.keep q with h | h
  · rw [h]; exact h1.keep q
  · exact .inr h

theorem Touch.mono {storage : Path} {N M : Name → Prop} {a b : FS} (hNM : ∀ n, N n → M n) (h : Touch storage N a b) : Touch storage M a b :=
  ⟨h.wf, fun q => (h.keep q).imp id (fun ⟨n, hn, hh⟩ => ⟨n, hNM n hn, hh⟩)⟩

theorem not_owned_storage {storage : Path} {n : Name} : ¬ Owned storage n storage := by
  rintro (h | h | h)
  · have := h.length_le; simp at this; omega
  · have := congrArg List.length h; simp [lockFile] at this
  · have := congrArg List.length h; simp [pidFile] at this

theorem owned_lock (storage : Path) (n : Name) : Owned storage n (lockFile storage n) := .inr (.inl rfl)

theorem Touch.storage {storage : Path} {N : Name → Prop} {a b : FS} (h : Touch storage N a b) (hs : a.isDirAt storage = true) : b.isDirAt storage = true := by
  rcases h.keep storage with hk | ⟨n, _, ⟨ho, _⟩ | ⟨hq, _⟩⟩
  · rw [FS.isDirAt_congr hk]; exact hs
  · exact absurd ho not_owned_storage
  · have h2 := owned_lock storage n; rw [← hq] at h2; exact absurd h2 not_owned_storage

theorem Touch.nolink {storage : Path} {N : Name → Prop} {a b : FS} (h : Touch storage N a b) {q : Path} (hq : ∀ n, a.get q = some n → n.isLnk = false) :
    ∀ n, b.get q = some n → n.isLnk = false := by
  intro n hn
  rcases h.keep q with hk | ⟨_, _, ⟨_, ho⟩ | ⟨_, m, hm, hr⟩⟩
  · exact hq n (hk ▸ hn)
  · rw [hn] at ho; cases ho
  · rw [hn] at hm; cases hm
    unfold Node.isLnk; rw [hr]; rfl

/-- `openLock` creates at most the lock file. -/
theorem openLock_touch {fs fs' : FS} {storage : Path} {name : Name} (hw : fs.WF) (hs : fs.isDirAt storage = true) (hn : '/' ∉ name)
    (h : openLock fs (lockFile storage name) = .ok fs') : Touch storage (· = name) fs fs' ∧ (∀ q n, fs.get q = some n → fs'.get q = some n) ∧
      ∃ n, fs'.get (lockFile storage name) = some n := by
  have hnn := normal_lock hn
  unfold openLock at h
  split at h
  · rename_i hp
    split at h
    · cases h
    · cases h
      refine ⟨.refl hw, fun _ _ h => h, ?_⟩
      cases hg : fs.get (lockFile storage name) with
      | some n => exact ⟨n, rfl⟩
      | none =>
        have h1 : fs.stat (lockFile storage name) = _ := FS.stat_chain (normal_child hw hs hnn) hw.root (chain_child hw hs _)
          (fun n hn => by change fs.get (lockFile storage name) = _ at hn; rw [hg] at hn; cases hn)
        rw [hg] at h1
        unfold FS.pexists at hp
        rw [h1] at hp
        cases hp
  · have hc : fs.canon (lockFile storage name) = .ok (lockFile storage name) := canon_child hw hs hnn
    rw [hc] at h
    dsimp only at h
    split at h
    · cases h
    · rename_i hg
      cases h
      refine ⟨⟨hw.set (normal_child hw hs hnn) (chain_child hw hs _) ?_, fun q => ?_⟩, fun q n hq => ?_, _, by rw [FS.get_set, if_pos rfl]⟩
      · intro _; exact ⟨by simp [lockFile], fun q hq => hw.none_below hg hq⟩
      · rw [FS.get_set]; split
        · rename_i he; subst he; right; exact ⟨name, rfl, .inr ⟨rfl, _, rfl, rfl⟩⟩
        · left; rfl
      · rw [FS.get_set]; split
        · rename_i he; subst he; rw [hg] at hq; cases hq
        · exact hq

theorem pexists_child {fs : FS} (hw : fs.WF) {d : Path} (hd : fs.isDirAt d = true) {x : Name} (hx : NormalName x)
    (hl : ∀ n, fs.get (d ++ [x]) = some n → n.isLnk = false) : fs.pexists (d ++ [x]) = (fs.get (d ++ [x])).isSome := by
  unfold FS.pexists
  rw [FS.stat_chain (normal_child hw hd hx) hw.root (chain_child hw hd x) hl]
  cases hg : fs.get (d ++ [x]) <;> rfl

/-- Deleting a file of a sandbox. -/
theorem del_touch {fs : FS} {storage : Path} {name : Name} {q : Path} {n : Node} (hw : fs.WF) (hg : fs.get q = some n) (hd : n.isDir = false)
    (ho : Owned storage name q) : Touch storage (· = name) fs (fs.del q) := by
  refine ⟨hw.del_nondir hg hd, fun r => ?_⟩
  rw [FS.get_del]; split
  · rename_i he; subst he; exact .inr ⟨name, rfl, .inl ⟨ho, rfl⟩⟩
  · exact .inl rfl

/-- `get` (to look at a sandbox) creates at most the lock file, removes at most the pid file and kills nothing. -/
theorem getSandbox_touch {s s' : Sys} {storage : Path} {name : Name} {pid : Option Nat} (hw : s.fs.WF) (hs : s.fs.isDirAt storage = true) (hn : '/' ∉ name)
    (h : getSandbox s storage name = .ok (s', pid)) :
    Touch storage (· = name) s.fs s'.fs ∧ s'.procs = s.procs ∧ s'.group = s.group ∧
      (∀ q n, s.fs.get q = some n → s'.fs.get q = some n ∨ q = pidFile storage name) ∧ ∃ n, s'.fs.get (lockFile storage name) = some n := by
  unfold getSandbox at h
  cases ho : openLock s.fs (lockFile storage name) with
  | error e => rw [ho] at h; cases h
  | ok fs1 =>
    rw [ho] at h
    dsimp only at h
    obtain ⟨ht, hk, hl⟩ := openLock_touch hw hs hn ho
    have base : Touch storage (· = name) s.fs fs1 ∧ s.procs = s.procs ∧ s.group = s.group ∧
      (∀ q n, s.fs.get q = some n → fs1.get q = some n ∨ q = pidFile storage name) ∧ ∃ n, fs1.get (lockFile storage name) = some n :=
      ⟨ht, rfl, rfl, fun q n hq => .inl (hk q n hq), hl⟩
    split at h
    · cases h; exact base
    · split at h
      · cases h; exact base
      · split at h
        · split at h
          · rename_i hu
            cases h
            obtain ⟨n, hg, hd, rfl⟩ := unlink_child ht.wf (ht.storage hs) (normal_pid hn) hu
            refine ⟨ht.trans (del_touch ht.wf hg hd (.inr (.inr rfl))), rfl, rfl, fun q m hq => ?_, ?_⟩
            · dsimp only; rw [FS.get_del]; split
              · rename_i he; exact .inr he.symm
              · exact .inl (hk q m hq)
            · obtain ⟨m, hm⟩ := hl
              refine ⟨m, ?_⟩
              dsimp only; rw [FS.get_del, if_neg]
              · exact hm
              · intro he
                have := List.append_cancel_left he
                simp [str] at this
          · cases h; exact base
        · cases h; exact base

theorem rmdirAt_eq {fs : FS} (fault : Fault) (hw : fs.WF) {p : Path} {n : Node} (hg : fs.get p = some n) (hl : n.isLnk = false) :
    rmdirAt fault fs p = rmdirRecursiveF fault fs p := by
  have hn := hw.normal_of_get hg
  have hc := hw.chain hg
  have hdd : ¬ p.getLast? = some ['.', '.'] := by
    intro h
    exact (hn _ (List.mem_of_getLast? h)).2.2.2 rfl
  unfold rmdirAt rmdirRecursiveF rmdirRecN
  rw [if_neg hdd, FS.lstat_chain hn hc, FS.realpath_chain hn hw.root hc (fun m hm => by rw [hg] at hm; cases hm; exact hl)]
  simp only [hg]
  have : fs.isDirAt p = n.isDir := by unfold FS.isDirAt; rw [hg]
  rw [this]
  rfl

theorem removePidFile_ok {fault : Fault} {fs fs' : FS} {storage : Path} {name : Name} (hw : fs.WF) (hs : fs.isDirAt storage = true) (hn : '/' ∉ name)
    (h : removePidFile fault fs storage name = .ok fs') : Touch storage (· = name) fs fs' ∧ (∀ q, q ≠ pidFile storage name → fs'.get q = fs.get q) ∧
      ((∀ n, fs.get (pidFile storage name) = some n → n.isLnk = false) → fs'.get (pidFile storage name) = none) := by
  unfold removePidFile at h
  split at h
  · obtain ⟨n, hg, hd, rfl⟩ := unlink_child hw hs (normal_pid hn) (faulty_ok h)
    refine ⟨del_touch hw hg hd (.inr (.inr rfl)), fun q hq => ?_, fun _ => ?_⟩
    · rw [FS.get_del, if_neg]; exact fun he => hq he.symm
    · rw [FS.get_del]; exact if_pos rfl
  · rename_i hp
    cases h
    refine ⟨.refl hw, fun _ _ => rfl, fun hl => ?_⟩
    have := pexists_child hw hs (normal_pid hn) hl
    change fs.pexists (pidFile storage name) = (fs.get (pidFile storage name)).isSome at this
    rw [this] at hp
    simpa using hp

theorem killSandbox_fs (s : Sys) (pid : Option Nat) : (killSandbox s pid).fs = s.fs := by
  unfold killSandbox; split
  · rfl
  · split <;> rfl

/-- Steps of `delete` for one sandbox: everything stays within the files of this sandbox, and the lock file goes last. -/
theorem deleteSandbox_touch (fault : Fault) (s : Sys) (storage : Path) (name : Name) (pid : Option Nat) (hw : s.fs.WF) (hs : s.fs.isDirAt storage = true)
    (hn : NormalName name) (hl : ∀ n, s.fs.get (storage ++ [name]) = some n → n.isLnk = false) :
    Touch storage (· = name) s.fs (deleteSandbox fault s storage name pid).1.fs ∧
      (∀ q, (deleteSandbox fault s storage name pid).1.fs.get q = s.fs.get q ∨ (deleteSandbox fault s storage name pid).1.fs.get q = none) ∧
      ((deleteSandbox fault s storage name pid).2 = none ∨
        (deleteSandbox fault s storage name pid).1.fs.get (lockFile storage name) = none ∧ s.fs.get (lockFile storage name) ≠ none →
        (∀ q, storage ++ [name] <+: q → (deleteSandbox fault s storage name pid).1.fs.get q = none) ∧
        (deleteSandbox fault s storage name pid).1.fs.get (lockFile storage name) = none ∧
        ((∀ n, s.fs.get (pidFile storage name) = some n → n.isLnk = false) → (deleteSandbox fault s storage name pid).1.fs.get (pidFile storage name) = none)) := by
  have hsd := sandboxDir_normal (storage := storage) hn
  have hlp : lockFile storage name ≠ pidFile storage name := by intro he; have := List.append_cancel_left he; simp [str] at this
  have hlb : ¬ storage ++ [name] <+: lockFile storage name := by
    intro h; have := h.eq_of_length (by simp [lockFile]); have := List.append_cancel_left this; simp [str] at this
  have hpb : ¬ storage ++ [name] <+: pidFile storage name := by
    intro h; have := h.eq_of_length (by simp [pidFile]); have := List.append_cancel_left this; simp [str] at this
  unfold deleteSandbox
  dsimp only
  rw [killSandbox_fs]
  cases hr : removePidFile fault s.fs storage name with
  | error e =>
    dsimp only
    rw [killSandbox_fs]
    refine ⟨.refl hw, fun _ => .inl rfl, fun h => ?_⟩
    rcases h with h | ⟨h1, h2⟩
    · cases h
    · exact absurd h1 h2
  | ok fs1 =>
    obtain ⟨ht1, hk1, hp1⟩ := removePidFile_ok hw hs hn.2.1 hr
    have hs1 := ht1.storage hs
    have hl1 : ∀ n, fs1.get (storage ++ [name]) = some n → n.isLnk = false := ht1.nolink hl
    have hsub1 : ∀ q, fs1.get q = s.fs.get q ∨ fs1.get q = none := by
      intro q
      unfold removePidFile at hr
      split at hr
      · obtain ⟨n, hg, hd, rfl⟩ := unlink_child hw hs (normal_pid hn.2.1) (faulty_ok hr)
        rw [FS.get_del]; split
        · exact .inr rfl
        · exact .inl rfl
      · cases hr; exact .inl rfl
    rw [hsd]
    have hpe := pexists_child ht1.wf hs1 hn hl1
    dsimp only
    rw [hpe]
    -- the directory
    have key : ∃ fs2 e, (if (fs1.get (storage ++ [name])).isSome = true then rmdirAt fault fs1 (storage ++ [name]) else (fs1, none)) = (fs2, e) ∧
        fs2.WF ∧ (∀ q, ¬ storage ++ [name] <+: q → fs2.get q = fs1.get q) ∧ (∀ q, fs2.get q = fs1.get q ∨ fs2.get q = none) ∧
        (e = none → ∀ q, storage ++ [name] <+: q → fs2.get q = none) := by
      cases hg : fs1.get (storage ++ [name]) with
      | none =>
        refine ⟨fs1, none, rfl, ht1.wf, fun _ _ => rfl, fun _ => .inl rfl, fun _ q hq => ?_⟩
        by_cases he : storage ++ [name] = q
        · rw [← he]; exact hg
        · exact ht1.wf.none_below hg (below_iff.2 ⟨hq, he⟩)
      | some n =>
        have h53 := C53_stays_inside fault fs1 (storage ++ [name]) n ht1.wf hg (by simp)
        refine ⟨(rmdirRecursiveF fault fs1 (storage ++ [name])).1, (rmdirRecursiveF fault fs1 (storage ++ [name])).2, ?_, ?_⟩
        · rw [if_pos (by rfl), rmdirAt_eq fault ht1.wf hg (hl1 n hg)]
        exact ⟨h53.2.2.2, h53.1, h53.2.1, fun he => C53_success_removes_all fault fs1 _ n ht1.wf hg (by simp) he⟩
    obtain ⟨fs2, e, he, hw2, hout, hsub, hall⟩ := key
    rw [he]
    have ht2 : Touch storage (· = name) s.fs fs2 := ht1.trans ⟨hw2, fun q => by
      rcases hsub q with h | h
      · exact .inl h
      · by_cases hq : storage ++ [name] <+: q
        · exact .inr ⟨name, rfl, .inl ⟨.inl hq, h⟩⟩
        · exact .inl (hout q hq)⟩
    have hsub2 : ∀ q, fs2.get q = s.fs.get q ∨ fs2.get q = none := fun q => by
      rcases hsub q with h | h
      · rw [h]; exact hsub1 q
      · exact .inr h
    cases e with
    | some e =>
      dsimp only
      refine ⟨ht2, hsub2, fun h => ?_⟩
      rcases h with h | ⟨h1, h2⟩
      · cases h
      · rw [hout _ hlb, hk1 _ hlp] at h1; exact absurd h1 h2
    | none =>
      dsimp only
      cases hu : faulty fault (lockFile storage name) (fs2.unlink (lockFile storage name)) with
      | error e =>
        dsimp only
        refine ⟨ht2, hsub2, fun h => ?_⟩
        rcases h with h | ⟨h1, h2⟩
        · cases h
        · rw [hout _ hlb, hk1 _ hlp] at h1; exact absurd h1 h2
      | ok fs3 =>
        dsimp only
        obtain ⟨n, hg, hd, rfl⟩ := unlink_child hw2 (ht2.storage hs) (normal_lock hn.2.1) (faulty_ok hu)
        refine ⟨ht2.trans (del_touch hw2 hg hd (owned_lock _ _)), fun q => ?_, fun _ => ⟨fun q hq => ?_, ?_, fun hpl => ?_⟩⟩
        · rw [FS.get_del]; split
          · exact .inr rfl
          · exact hsub2 q
        · rw [FS.get_del]; split
          · rfl
          · exact hall rfl q hq
        · rw [FS.get_del]; exact if_pos rfl
        · rw [FS.get_del]; split
          · rfl
          · rw [hout _ hpb]; exact hp1 hpl

end SB
