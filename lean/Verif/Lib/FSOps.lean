import Verif.Lib.FSLemmas

/-! Effect of the system calls on well-formed trees (proof machinery). -/

namespace SB
namespace FS

theorem WF.mk' {fs : FS} (hn : fs.keys.Nodup) (hr : fs.isDirAt [] = true)
    (hp : ∀ p n, fs.get p = some n → p ≠ [] → fs.isDirAt p.dropLast = true)
    (hN : ∀ p n, fs.get p = some n → NormalPath p) : fs.WF :=
  ⟨hn, hr, fun p hm => by obtain ⟨n, h⟩ := mem_keys.1 hm; exact hp p n h,
   fun p hm => by obtain ⟨n, h⟩ := mem_keys.1 hm; exact hN p n h⟩

theorem isDirAt_congr {fs gs : FS} {p : Path} (h : fs.get p = gs.get p) : fs.isDirAt p = gs.isDirAt p := by
  unfold isDirAt; rw [h]

theorem WF.del {fs : FS} (h : fs.WF) {p : Path} (hp : p ≠ []) (hc : ∀ q, Below p q → fs.get q = none) :
    (fs.del p).WF := by
  refine WF.mk' (keys_del_nodup h.nodup p) ?_ ?_ ?_
  · rw [isDirAt_congr (gs := fs)]; exact h.root
    rw [get_del, if_neg hp]
  · intro q n hg hq
    rw [get_del] at hg
    by_cases hpq : p = q
    · simp [hpq] at hg
    · rw [if_neg hpq] at hg
      have := h.parent q (mem_keys.2 ⟨n, hg⟩) hq
      rw [isDirAt_congr (gs := fs)]; exact this
      rw [get_del, if_neg]
      rintro rfl
      have := hc q (dropLast_below hq)
      rw [hg] at this; cases this
  · intro q n hg
    rw [get_del] at hg
    by_cases hpq : p = q
    · simp [hpq] at hg
    · rw [if_neg hpq] at hg; exact h.normal_of_get hg

theorem WF.set {fs : FS} (h : fs.WF) {p : Path} {n : Node} (hN : NormalPath p) (hc : fs.Chain p)
    (hk : n.isDir = false → p ≠ [] ∧ ∀ q, Below p q → fs.get q = none) :
    (fs.set p n).WF := by
  have hdir : ∀ q, (∃ r m, fs.get r = some m ∧ Below q r) → fs.isDirAt q = true → (fs.set p n).isDirAt q = true := by
    intro q ⟨r, m, hr, hb⟩ hq
    by_cases hpq : p = q
    · subst hpq
      cases hnd : n.isDir with
      | true => rw [isDirAt_iff]; exact ⟨n, by rw [get_set, if_pos rfl], hnd⟩
      | false => rw [(hk hnd).2 r hb] at hr; cases hr
    · rw [isDirAt_congr (gs := fs)]; exact hq
      rw [get_set, if_neg hpq]
  refine WF.mk' (keys_set_nodup h.nodup p n) ?_ ?_ ?_
  · by_cases hp : p = []
    · subst hp
      cases hnd : n.isDir with
      | true => rw [isDirAt_iff]; exact ⟨n, by rw [get_set, if_pos rfl], hnd⟩
      | false => exact absurd rfl (hk hnd).1
    · rw [isDirAt_congr (gs := fs)]; exact h.root
      rw [get_set, if_neg hp]
  · intro q m hg hq
    rw [get_set] at hg
    by_cases hpq : p = q
    · subst hpq
      have h1 := hc _ (dropLast_below hq)
      rw [isDirAt_congr (gs := fs)]; exact h1
      rw [get_set, if_neg (dropLast_below hq).ne.symm]
    · rw [if_neg hpq] at hg
      exact hdir _ ⟨q, m, hg, dropLast_below hq⟩ (h.ancestor hg (dropLast_below hq))
  · intro q m hg
    rw [get_set] at hg
    by_cases hpq : p = q
    · subst hpq; exact hN
    · rw [if_neg hpq] at hg; exact h.normal_of_get hg

theorem WF.unlink_eq {fs : FS} (h : fs.WF) {p : Path} {n : Node} (hg : fs.get p = some n)
    (hd : n.isDir = false) : fs.unlink p = .ok (fs.del p) := by
  unfold unlink; rw [h.canon_get hg]; simp [hg, hd]

theorem WF.ne_nil {fs : FS} (h : fs.WF) {p : Path} {n : Node} (hg : fs.get p = some n)
    (hd : n.isDir = false) : p ≠ [] := by
  rintro rfl
  obtain ⟨m, hm, hmd⟩ := isDirAt_iff.1 h.root
  rw [hg] at hm; cases hm; rw [hd] at hmd; cases hmd

theorem WF.del_nondir {fs : FS} (h : fs.WF) {p : Path} {n : Node} (hg : fs.get p = some n)
    (hd : n.isDir = false) : (fs.del p).WF :=
  h.del (h.ne_nil hg hd) (fun _ hq => h.no_child hg hd hq)

theorem WF.mountPoint_false {fs : FS} (h : fs.WF) {p : Path} {n : Node} (hg : fs.get p = some n) (hp : p ≠ [])
    (hd : ∀ m, fs.get p.dropLast = some m → m.dev = n.dev) : fs.mountPoint p = false := by
  obtain ⟨m, hm, _⟩ := isDirAt_iff.1 (h.ancestor hg (dropLast_below hp))
  simp [mountPoint, devOf, hg, hm, hd m hm]

theorem WF.rmdir_eq {fs : FS} (h : fs.WF) {p : Path} {n : Node} (hg : fs.get p = some n)
    (hd : n.isDir = true) (hp : p ≠ []) (hm : fs.mountPoint p = false) (hc : ∀ q, Below p q → fs.get q = none) :
    fs.rmdir p = .ok (fs.del p) := by
  unfold rmdir; rw [h.canon_get hg]
  have : fs.hasChild p = false := by
    rw [Bool.eq_false_iff]; intro hh
    obtain ⟨q, m, hb, hq⟩ := hasChild_iff.1 hh
    rw [hc q hb] at hq; cases hq
  simp [hg, hd, hp, hm, this]

theorem del_hasChild_none {fs : FS} {p : Path} (h : fs.hasChild p = false) : ∀ q, Below p q → fs.get q = none := by
  intro q hq
  cases hg : fs.get q with
  | none => rfl
  | some m =>
    have : fs.hasChild p = true := hasChild_iff.2 ⟨q, m, hq, hg⟩
    rw [h] at this; cases this

/-! ### frames: what a system call can change, for arbitrary (even aliased) arguments -/

theorem canon_ok_normal_last {fs : FS} {p c : Path} (h : fs.canon p = .ok c) :
    (p = [] ∧ c = []) ∨ ∃ d l, c = d ++ [l] ∧ fs.isDirAt d = true ∧ p.getLast? = some l := by
  unfold canon at h
  cases hl : p.getLast? with
  | none => rw [hl] at h; simp at h; left; exact ⟨List.getLast?_eq_none_iff.1 hl, h⟩
  | some l =>
    rw [hl] at h
    simp only at h
    cases hr : fs.realpath p.dropLast with
    | error e => rw [hr] at h; cases h
    | ok d =>
      rw [hr] at h
      by_cases hd : fs.isDirAt d = true
      · simp [hd] at h; right; exact ⟨d, l, h.symm, hd, rfl⟩
      · simp [hd] at h

theorem unlink_ok {fs gs : FS} {p : Path} (h : fs.unlink p = .ok gs) :
    ∃ c n, fs.canon p = .ok c ∧ fs.get c = some n ∧ n.isDir = false ∧ gs = fs.del c := by
  unfold unlink at h
  cases hc : fs.canon p with
  | error e => rw [hc] at h; cases h
  | ok c =>
    rw [hc] at h; simp only at h
    cases hg : fs.get c with
    | none => rw [hg] at h; cases h
    | some n =>
      rw [hg] at h; simp only at h
      cases hd : n.isDir with
      | true => simp [hd] at h
      | false => simp [hd] at h; exact ⟨c, n, rfl, hg, hd, h.symm⟩

theorem rmdir_ok {fs gs : FS} {p : Path} (h : fs.rmdir p = .ok gs) :
    ∃ c n, fs.canon p = .ok c ∧ fs.get c = some n ∧ n.isDir = true ∧ c ≠ [] ∧
      fs.hasChild c = false ∧ gs = fs.del c := by
  unfold rmdir at h
  cases hc : fs.canon p with
  | error e => rw [hc] at h; cases h
  | ok c =>
    rw [hc] at h; simp only at h
    cases hg : fs.get c with
    | none => rw [hg] at h; cases h
    | some n =>
      rw [hg] at h; simp only at h
      cases hd : n.isDir with
      | false => simp [hd] at h
      | true =>
        by_cases hp : c = []
        · simp [hd, hp] at h
        · cases hm : fs.mountPoint c with
          | true => simp [hd, hp, hm] at h
          | false =>
            cases hh : fs.hasChild c with
            | true => simp [hd, hp, hm, hh] at h
            | false => simp [hd, hp, hm, hh] at h; exact ⟨c, n, rfl, hg, hd, hp, hh, h.symm⟩

/-! ### resolution of paths without symbolic links -/

theorem walk_nolink (fs : FS) (ol) (todo : Path) : ∀ (cur c : Path), NormalPath todo →
    (∀ r, r <+: todo → r ≠ [] → ∀ n, fs.get (cur ++ r) = some n → n.isLnk = false) →
    fs.walk ol cur todo = .ok c → c = cur ++ todo := by
  induction todo with
  | nil => intro cur c _ _ h; simp only [walk, Except.ok.injEq] at h; simp [h]
  | cons x t ih =>
    intro cur c hn hl h
    have hx := hn x (by simp)
    simp only [walk] at h
    cases hd : fs.get cur with
    | none => rw [hd] at h; cases h
    | some d =>
      rw [hd] at h
      simp only at h
      split at h
      · rw [if_neg hx.2.2.2] at h
        cases hm : fs.get (cur ++ [x]) with
        | none => rw [hm] at h; cases h
        | some m =>
          rw [hm] at h
          have hml := hl [x] (by simp) (by simp) m hm
          have key : fs.walk ol (cur ++ [x]) t = .ok c := by
            unfold Node.isLnk at hml
            cases hk : m.kind <;> simp only [hk, Kind.isLnk] at h hml <;> first | exact h | cases hml
          have := ih (cur ++ [x]) c (fun n hn' => hn n (by simp [hn']))
            (fun r hr hr0 n hg => hl (x :: r) (by simpa using hr) (by simp) n (by simpa using hg)) key
          simpa using this
      · cases h

/-- If no proper ancestor of `p` is a symbolic link, `p` names itself or nothing. -/
theorem canon_nolink {fs : FS} {p c : Path} (hn : NormalPath p)
    (hl : ∀ q, Below q p → ∀ n, fs.get q = some n → n.isLnk = false) (h : fs.canon p = .ok c) : c = p := by
  unfold canon at h
  rcases List.eq_nil_or_concat p with rfl | ⟨d, l, rfl⟩
  · simp at h; exact h
  · rw [List.concat_eq_append] at *
    simp only [List.getLast?_append_of_ne_nil, List.getLast?_singleton, ne_eq, List.cons_ne_self, not_false_eq_true,
      List.dropLast_concat] at h
    cases hr : fs.realpath d with
    | error e => rw [hr] at h; cases h
    | ok e =>
      rw [hr] at h
      have : e = [] ++ d := by
        have hr' : fs.walk (fs.resolveN 39) [] d = .ok e := hr
        refine walk_nolink fs _ d [] e hn.of_append_left (fun r hr hr0 n hg => ?_) hr'
        exact hl ([] ++ r) (by
          obtain ⟨s, rfl⟩ := hr
          exact ⟨s ++ [l], by simp, by simp⟩) n hg
      simp only at h
      split at h
      · simp only [Except.ok.injEq] at h; rw [← h, this]; simp
      · cases h

end FS
end SB
