import Verif.Lib.Plain

/-! The operations that apply one `Set` change, as a block (proof machinery). -/

namespace SB

theorem FS.get_set_self (fs : FS) (p : Path) (n : Node) : (fs.set p n).get p = some n := by rw [FS.get_set, if_pos rfl]

theorem exec_lift {st st' : State} {r : Except Errno FS} {x : Option AccErr} (h : liftLower st r = (st', x)) :
    (∃ fs, r = .ok fs ∧ st' = { st with lower := fs } ∧ x = none) ∨ (∃ e, r = .error e ∧ st' = st ∧ x = some (.os e)) := by
  cases r with
  | ok fs => left; simp only [liftLower, Prod.mk.injEq] at h; exact ⟨fs, rfl, h.1.symm, h.2.symm⟩
  | error e => right; simp only [liftLower, Prod.mk.injEq] at h; exact ⟨e, rfl, h.1.symm, h.2.symm⟩

/-- Invert a crash point of a non-empty list. -/
theorem crash_cons {op : Op} {ops : List Op} {st st' : State} (h : CrashState (op :: ops) st st') :
    st' = st ∨ Mid op st st' ∨ (∃ e, exec op st = (st', some e)) ∨ ∃ st1, exec op st = (st1, none) ∧ CrashState ops st1 st' := by
  cases h with
  | here => left; rfl
  | mid h => right; left; exact h
  | failed h => right; right; left; exact ⟨_, h⟩
  | later h1 h2 => right; right; right; exact ⟨_, h1, h2⟩

theorem crash_nil {st st' : State} (h : CrashState [] st st') : st' = st := by cases h; rfl

theorem run_cons {op : Op} {ops : List Op} {st st' : State} (h : run (op :: ops) st = (st', none)) :
    ∃ st1, exec op st = (st1, none) ∧ run ops st1 = (st', none) := by
  simp only [run] at h
  cases he : exec op st with
  | mk st1 x =>
    rw [he] at h
    cases x with
    | none => exact ⟨st1, rfl, h⟩
    | some e => simp at h

/-- `b` agrees with `a` except at `d` and `t`. -/
def Agree (d t : Path) (a b : FS) : Prop := ∀ q, q ≠ d → q ≠ t → b.get q = a.get q

theorem Agree.refl {d t : Path} {a : FS} : Agree d t a a := fun _ _ _ => rfl
theorem Agree.trans {d t : Path} {a b c : FS} (h1 : Agree d t a b) (h2 : Agree d t b c) : Agree d t a c :=
  fun q hd ht => (h2 q hd ht).trans (h1 q hd ht)

/-- Where a `Set` acts: a plain destination and a temporary beside it. -/
structure Slot (d t : Path) (fs : FS) : Prop where
  wf : fs.WF
  nd : NormalPath d
  nt : NormalPath t
  len : t.length = d.length
  above : ∀ y, Below y t ↔ Below y d
  ne : t ≠ d
  noLink : fs.NoLinkAbove d

theorem Slot.ne_of_below {d t : Path} {fs : FS} (h : Slot d t fs) {y : Path} (hy : Below y d) : y ≠ d ∧ y ≠ t := by
  refine ⟨hy.ne, ?_⟩
  rintro rfl
  obtain ⟨r, hr, h1⟩ := hy
  have := congrArg List.length h1
  rw [List.length_append, h.len] at this
  exact hr (List.length_eq_zero_iff.1 (by omega))

theorem Slot.step {d t : Path} {a b : FS} (h : Slot d t a) (hb : b.WF) (hab : Agree d t a b) : Slot d t b := by
  refine ⟨hb, h.nd, h.nt, h.len, h.above, h.ne, fun y hy n hn => ?_⟩
  obtain ⟨h1, h2⟩ := h.ne_of_below hy
  rw [hab y h1 h2] at hn
  exact h.noLink y hy n hn

theorem Slot.noLinkT {d t : Path} {a : FS} (h : Slot d t a) : a.NoLinkAbove t :=
  fun y hy n hn => h.noLink y ((h.above y).1 hy) n hn

theorem Slot.not_prefix {d t : Path} {a : FS} (h : Slot d t a) : ¬ t <+: d ∧ ¬ d <+: t :=
  ⟨fun hp => h.ne (hp.eq_of_length h.len), fun hp => h.ne (hp.eq_of_length h.len.symm).symm⟩

theorem agree_set {d t p : Path} {a : FS} {n : Node} (h : p = d ∨ p = t) : Agree d t a (a.set p n) := by
  intro q hd ht
  rw [FS.get_set, if_neg]
  rintro rfl
  rcases h with h | h
  · exact hd h
  · exact ht h

theorem agree_del {d t p : Path} {a : FS} (h : p = d ∨ p = t) : Agree d t a (a.del p) := by
  intro q hd ht
  rw [FS.get_del, if_neg]
  rintro rfl
  rcases h with h | h
  · exact hd h
  · exact ht h

/-- Effect of moving the temporary regular file onto the destination. -/
theorem slot_mv {d t : Path} {a b : FS} (h : Slot d t a) {n : Node} (hn : a.get t = some n) (hnd : n.isDir = false)
    (hr : a.rename t d = .ok b) : b.WF ∧ Agree d t a b ∧ b.get d = some n ∧ b.get t = none ∧
      ∀ m, a.get d = some m → m.isDir = false := by
  obtain ⟨hR, hw⟩ := FS.rename_plain h.wf h.nt h.noLinkT h.nd h.noLink h.ne hr
  obtain ⟨n', hn', _, hm⟩ := hR.ex
  rw [hn] at hn'; cases hn'
  obtain ⟨np1, np2⟩ := h.not_prefix
  have hdd : ∀ m, a.get d = some m → m.isDir = false := fun m hm' => by rw [hm m hm', hnd]
  refine ⟨hw, fun q hqd hqt => ?_, ?_, ?_, hdd⟩
  · rw [hR.get]
    split
    · rename_i hdq
      obtain ⟨r, rfl⟩ := hdq
      have hr0 : r ≠ [] := by rintro rfl; simp at hqd
      rw [List.drop_left]
      have h1 : a.get (t ++ r) = none := h.wf.no_child hn hnd ⟨r, hr0, rfl⟩
      have h2 : a.get (d ++ r) = none := by
        cases hd : a.get d with
        | none => exact h.wf.none_below hd ⟨r, hr0, rfl⟩
        | some m => exact h.wf.no_child hd (hdd m hd) ⟨r, hr0, rfl⟩
      rw [h1, h2]
    · split
      · rename_i htq
        exact (h.wf.no_child hn hnd (below_iff.2 ⟨htq, fun h => hqt h.symm⟩)).symm
      · rfl
  · rw [hR.get, if_pos (List.prefix_refl _)]; simp [hn]
  · rw [hR.get, if_neg np2, if_pos (List.prefix_refl _)]

/-- chown and chmod at the end of a `Set`: crash points. -/
theorem permOps_crash {d t : Path} {st st' : State} {n m : Node} (h : Slot d t st.lower) (hn : st.lower.get d = some n)
    (hc : CrashState (permOps d m) st st') :
    st'.lower.WF ∧ (∀ q, q ≠ d → st'.lower.get q = st.lower.get q) ∧ ∃ n', st'.lower.get d = some n' ∧ n'.kind = n.kind := by
  have base : ∀ fs : FS, fs = st.lower → fs.WF ∧ (∀ q, q ≠ d → fs.get q = st.lower.get q) ∧ ∃ n', fs.get d = some n' ∧ n'.kind = n.kind := by
    rintro fs rfl; exact ⟨h.wf, fun _ _ => rfl, n, hn, rfl⟩
  unfold permOps at hc
  rcases crash_cons hc with rfl | hm | ⟨e, he⟩ | ⟨st1, he, hc⟩
  · exact base _ rfl
  · cases hm
  · simp only [exec] at he
    rcases exec_lift he with ⟨fs, _, _, hx⟩ | ⟨e', _, rfl, _⟩
    · cases hx
    · exact base _ rfl
  · simp only [exec] at he
    rcases exec_lift he with ⟨fs, hfs, rfl, _⟩ | ⟨e', _, _, hx⟩
    · obtain ⟨n0, hn0, hw1, rfl⟩ := FS.chown_plain h.wf h.nd h.noLink hfs
      rw [hn] at hn0; cases hn0
      have s1 := h.step hw1 (agree_set (t := t) (Or.inl rfl))
      have g1 : ∀ q, q ≠ d → (st.lower.set d { n with uid := m.uid, gid := m.gid, perm := if n.isDir then n.perm else FS.killSuid n.perm }).get q
          = st.lower.get q := fun q hq => by rw [FS.get_set, if_neg (Ne.symm hq)]
      split at hc
      · cases crash_nil hc
        exact ⟨hw1, g1, _, FS.get_set_self _ _ _, rfl⟩
      · rcases crash_cons hc with rfl | hm | ⟨e, he⟩ | ⟨st2, he, hc⟩
        · exact ⟨hw1, g1, _, FS.get_set_self _ _ _, rfl⟩
        · cases hm
        · simp only [exec] at he
          rcases exec_lift he with ⟨fs, _, _, hx⟩ | ⟨e', _, rfl, _⟩
          · cases hx
          · exact ⟨hw1, g1, _, FS.get_set_self _ _ _, rfl⟩
        · cases crash_nil hc
          simp only [exec] at he
          rcases exec_lift he with ⟨fs, hfs, rfl, _⟩ | ⟨e', _, _, hx⟩
          · obtain ⟨n1, hn1, _, hw2, rfl⟩ := FS.chmod_plain s1.wf s1.nd s1.noLink hfs
            rw [FS.get_set, if_pos rfl] at hn1
            cases hn1
            refine ⟨hw2, fun q hq => ?_, _, FS.get_set_self _ _ _, rfl⟩
            simp only
            rw [FS.get_set, if_neg (Ne.symm hq)]; exact g1 q hq
          · cases hx
    · cases hx

theorem permOps_run {d t : Path} {st st' : State} {n m : Node} (h : Slot d t st.lower) (hn : st.lower.get d = some n)
    (hr : run (permOps d m) st = (st', none)) :
    ∃ n', st'.lower.get d = some n' ∧ n'.kind = n.kind ∧ n'.uid = m.uid ∧ n'.gid = m.gid ∧ (m.isLnk = false → n'.perm = m.perm ∧ n.isLnk = false) := by
  unfold permOps at hr
  obtain ⟨st1, he, hr⟩ := run_cons hr
  simp only [exec] at he
  rcases exec_lift he with ⟨fs, hfs, rfl, _⟩ | ⟨e', _, _, hx⟩
  · obtain ⟨n0, hn0, hw1, rfl⟩ := FS.chown_plain h.wf h.nd h.noLink hfs
    rw [hn] at hn0; cases hn0
    have s1 := h.step hw1 (agree_set (t := t) (Or.inl rfl))
    split at hr
    · rename_i hl
      simp only [run, Prod.mk.injEq, and_true] at hr
      subst hr
      exact ⟨_, FS.get_set_self _ _ _, rfl, rfl, rfl, fun h => by rw [hl] at h; cases h⟩
    · obtain ⟨st2, he, hr⟩ := run_cons hr
      simp only [run, Prod.mk.injEq, and_true] at hr
      subst hr
      simp only [exec] at he
      rcases exec_lift he with ⟨fs, hfs, rfl, _⟩ | ⟨e', _, _, hx⟩
      · obtain ⟨n1, hn1, hl1, hw2, rfl⟩ := FS.chmod_plain s1.wf s1.nd s1.noLink hfs
        rw [FS.get_set, if_pos rfl] at hn1
        cases hn1
        exact ⟨_, FS.get_set_self _ _ _, rfl, rfl, rfl, fun _ => ⟨rfl, hl1⟩⟩
      · cases hx
  · cases hx

theorem exec_cp {s t : Path} {st st1 : State} {n : Node} {x : Option AccErr} (hs : st.upper.get s = some n)
    (h : exec (.cp s t) st = (st1, x)) :
    (st1 = st ∧ x ≠ none) ∨ ∃ c fs, n.kind = .reg c ∧ st.lower.writeFile t c n.perm = .ok fs ∧ st1 = { st with lower := fs } ∧ x = none := by
  simp only [exec, hs] at h
  cases hk : n.kind <;> rw [hk] at h
  case reg c =>
    simp only at h
    rcases exec_lift h with ⟨fs, hfs, rfl, hx⟩ | ⟨e', _, rfl, hx⟩
    · right; exact ⟨c, fs, rfl, hfs, rfl, hx⟩
    · left; exact ⟨rfl, by rw [hx]; simp⟩
  all_goals (simp only [Prod.mk.injEq] at h; left; exact ⟨h.1.symm, by rw [← h.2]; simp⟩)

/-- What can be at the destination (`a.get d` before) while one `Set` of `m` is applied. -/
def DestOK (a b : FS) (d : Path) (m : Node) : Prop :=
  b.get d = a.get d ∨ (b.get d = none ∧ m.isLnk = true) ∨ ∃ n', b.get d = some n' ∧ (n'.kind = m.kind ∨ ∃ n0, a.get d = some n0 ∧ n'.kind = n0.kind)

/-- Crash points while one `Set` is applied: other paths are untouched, and the destination has its old content, is missing, or has the
complete staged content; the temporary is a regular file or missing. -/
theorem setOps_crash {d t : Path} {s : Details} {st st' : State} (h : Slot d t st.lower) (hs : st.upper.get s.path = some s.node)
    (ht : st.lower.get t = none) (hsup : s.node.supported = true) (hc : CrashState (setOps d s t) st st') :
    st'.lower.WF ∧ Agree d t st.lower st'.lower ∧ DestOK st.lower st'.lower d s.node ∧
      (∀ n, st'.lower.get t = some n → n.isReg = true) ∧ (s.node.isReg = false → st'.lower.get t = none) := by
  have base : ∀ x : State, x.lower = st.lower → x.lower.WF ∧ Agree d t st.lower x.lower ∧ DestOK st.lower x.lower d s.node ∧
      (∀ n, x.lower.get t = some n → n.isReg = true) ∧ (s.node.isReg = false → x.lower.get t = none) := by
    intro x hx; rw [hx]
    exact ⟨h.wf, Agree.refl, Or.inl rfl, fun n hn => (by rw [ht] at hn; cases hn), fun _ => ht⟩
  -- after the node has been put in place, only its owner and mode change
  have final : ∀ (st1 : State) (n1 : Node), st1.lower.WF → Agree d t st.lower st1.lower → st1.lower.get d = some n1 →
      (n1.kind = s.node.kind ∨ ∃ n0, st.lower.get d = some n0 ∧ n1.kind = n0.kind) → st1.lower.get t = none →
      CrashState (permOps d s.node) st1 st' →
      st'.lower.WF ∧ Agree d t st.lower st'.lower ∧ DestOK st.lower st'.lower d s.node ∧
      (∀ n, st'.lower.get t = some n → n.isReg = true) ∧ (s.node.isReg = false → st'.lower.get t = none) := by
    intro st1 n1 hw1 hag hg1 hk ht1 hc
    obtain ⟨hw', hout, n', hn', hk'⟩ := permOps_crash (h.step hw1 hag) hg1 hc
    have htt : st'.lower.get t = none := by rw [hout t h.ne, ht1]
    refine ⟨hw', hag.trans (fun q hq _ => hout q hq), Or.inr (Or.inr ⟨n', hn', ?_⟩), fun n hn => (by rw [htt] at hn; cases hn), fun _ => htt⟩
    rcases hk with hk | ⟨n0, h0, hk⟩
    · left; rw [hk', hk]
    · right; exact ⟨n0, h0, by rw [hk', hk]⟩
  unfold setOps at hc
  split at hc
  · rename_i hreg
    have aft : ∀ (c : Str) (pm : Nat) (fs : FS), st.lower.writeFile t c pm = .ok fs →
        fs.WF ∧ Agree d t st.lower fs ∧ (∃ n, fs.get t = some n ∧ n.kind = .reg c) ∧ fs.get d = st.lower.get d := by
      intro c pm fs hfs
      obtain ⟨n, rfl, hk, _, hw, _⟩ := FS.writeFile_plain h.wf h.nt h.noLinkT hfs
      exact ⟨hw, agree_set (Or.inr rfl), ⟨n, by rw [FS.get_set, if_pos rfl], hk⟩, by rw [FS.get_set, if_neg h.ne]⟩
    have aft2 : ∀ (c : Str) (pm : Nat) (fs : FS), st.lower.writeFile t c pm = .ok fs →
        fs.WF ∧ Agree d t st.lower fs ∧ DestOK st.lower fs d s.node ∧
        (∀ n, fs.get t = some n → n.isReg = true) ∧ (s.node.isReg = false → fs.get t = none) := by
      intro c pm fs hfs
      obtain ⟨h1, h2, ⟨n, h3, hk⟩, h4⟩ := aft c pm fs hfs
      exact ⟨h1, h2, Or.inl h4, fun m hm => by rw [h3] at hm; cases hm; simp [Node.isReg, hk, Kind.isReg], fun hf => by rw [hreg] at hf; cases hf⟩
    rcases crash_cons hc with rfl | hm | ⟨e, he⟩ | ⟨st1, he, hc⟩
    · exact base _ rfl
    · cases hm with
      | cp _ _ hfs => exact aft2 _ _ _ hfs
    · rcases exec_cp hs he with ⟨rfl, _⟩ | ⟨_, _, _, _, _, hx⟩
      · exact base _ rfl
      · cases hx
    · rcases exec_cp hs he with ⟨_, hx⟩ | ⟨c, fs, hk, hfs, rfl, _⟩
      · exact absurd rfl hx
      · obtain ⟨hw1, ha1, ⟨n1, hn1, hk1⟩, hd1⟩ := aft c _ fs hfs
        rcases crash_cons hc with rfl | hm | ⟨e, he⟩ | ⟨st2, he, hc⟩
        · exact aft2 _ _ _ hfs
        · cases hm
        · simp only [exec] at he
          rcases exec_lift he with ⟨_, _, _, hx⟩ | ⟨e', _, rfl, _⟩
          · cases hx
          · exact aft2 _ _ _ hfs
        · simp only [exec] at he
          rcases exec_lift he with ⟨gs, hgs, rfl, _⟩ | ⟨_, _, _, hx⟩
          · obtain ⟨hw2, ha2, hd2, ht2, _⟩ := slot_mv (h.step hw1 ha1) hn1 (by simp [Node.isDir, hk1]) hgs
            exact final _ n1 hw2 (ha1.trans ha2) hd2 (Or.inl (by rw [hk1, hk])) ht2 hc
          · cases hx
  · rename_i hreg
    split at hc
    · rename_i hlnk
      have dels : ∀ fs, st.lower.unlink d = .ok fs → fs.WF ∧ Agree d t st.lower fs ∧ fs.get d = none ∧ fs.get t = none := by
        intro fs hfs
        obtain ⟨rfl, hw, _⟩ := FS.unlink_plain h.wf h.nd h.noLink hfs
        exact ⟨hw, agree_del (Or.inl rfl), by rw [FS.get_del, if_pos rfl], by rw [FS.get_del, if_neg h.ne.symm, ht]⟩
      have lnk : ∀ st1 : State, st1.upper = st.upper → st1.lower.WF → Agree d t st.lower st1.lower →
          (st1.lower.get d = none ∨ st1.lower.get d = st.lower.get d) → st1.lower.get t = none →
          CrashState (.ln s.path d :: permOps d s.node) st1 st' →
          st'.lower.WF ∧ Agree d t st.lower st'.lower ∧ DestOK st.lower st'.lower d s.node ∧
          (∀ n, st'.lower.get t = some n → n.isReg = true) ∧ (s.node.isReg = false → st'.lower.get t = none) := by
        intro st1 hup hw1 ha1 hd1 ht1 hc
        have here : ∀ x : State, x.lower = st1.lower → x.lower.WF ∧ Agree d t st.lower x.lower ∧ DestOK st.lower x.lower d s.node ∧
            (∀ n, x.lower.get t = some n → n.isReg = true) ∧ (s.node.isReg = false → x.lower.get t = none) := by
          intro x hx; rw [hx]
          refine ⟨hw1, ha1, ?_, fun n hn => (by rw [ht1] at hn; cases hn), fun _ => ht1⟩
          rcases hd1 with h | h
          · exact Or.inr (Or.inl ⟨h, hlnk⟩)
          · exact Or.inl h
        have hlink : ∃ tg, s.node.kind = .lnk tg := by
          unfold Node.isLnk Kind.isLnk at hlnk
          cases hk : s.node.kind <;> rw [hk] at hlnk <;> simp at hlnk
          exact ⟨_, rfl⟩
        obtain ⟨tg, hk⟩ := hlink
        have hex : exec (.ln s.path d) st1 = liftLower st1 (st1.lower.symlink tg d) := by
          simp only [exec, hup, hs, hk]
        rcases crash_cons hc with rfl | hm | ⟨e, he⟩ | ⟨st2, he, hc⟩
        · exact here _ rfl
        · cases hm
        · rw [hex] at he
          rcases exec_lift he with ⟨_, _, _, hx⟩ | ⟨e', _, rfl, _⟩
          · cases hx
          · exact here _ rfl
        · rw [hex] at he
          rcases exec_lift he with ⟨gs, hgs, rfl, _⟩ | ⟨_, _, _, hx⟩
          · have s1 := h.step hw1 ha1
            obtain ⟨rfl, hw2, _⟩ := FS.symlink_plain s1.wf s1.nd s1.noLink hgs
            refine final _ { kind := .lnk tg, perm := 0o777, dev := st1.lower.devOf d.dropLast } hw2 (ha1.trans (agree_set (Or.inl rfl)))
              (FS.get_set_self _ _ _) (Or.inl (by rw [hk])) ?_ hc
            simp only
            rw [FS.get_set, if_neg h.ne.symm, ht1]
          · cases hx
      have hex : ∀ x y, exec (.rmIfExists d) st = (x, y) → (y = none ∧ x = st) ∨
          (∃ fs, st.lower.unlink d = .ok fs ∧ x = { st with lower := fs } ∧ y = none) ∨ (y ≠ none ∧ x = st) := by
        intro x y he
        simp only [exec] at he
        split at he
        · rcases exec_lift he with ⟨fs, hfs, rfl, hx⟩ | ⟨e', _, rfl, hx⟩
          · right; left; exact ⟨fs, hfs, rfl, hx⟩
          · right; right; exact ⟨by rw [hx]; simp, rfl⟩
        · simp only [Prod.mk.injEq] at he; left; exact ⟨he.2.symm, he.1.symm⟩
        · simp only [Prod.mk.injEq] at he; right; right; exact ⟨by rw [← he.2]; simp, he.1.symm⟩
      rcases crash_cons hc with rfl | hm | ⟨e, he⟩ | ⟨st1, he, hc2⟩
      · exact base _ rfl
      · cases hm
      · rcases hex _ _ he with ⟨hx, _⟩ | ⟨_, _, _, hx⟩ | ⟨_, rfl⟩
        · cases hx
        · cases hx
        · exact base _ rfl
      · rcases hex _ _ he with ⟨_, rfl⟩ | ⟨fs, hfs, rfl, _⟩ | ⟨hx, _⟩
        · exact lnk _ rfl h.wf Agree.refl (Or.inr rfl) ht hc2
        · obtain ⟨h1, h2, h3, h4⟩ := dels fs hfs
          exact lnk { st with lower := fs } rfl h1 h2 (Or.inl h3) h4 hc2
        · exact absurd rfl hx
    · rename_i hlnk
      have hex : ∀ x y, exec (.mkdirIfNeeded d) st = (x, y) → (y = none ∧ x = st ∧ st.lower.pisDir d = true) ∨
          (∃ fs, st.lower.mkdir d = .ok fs ∧ x = { st with lower := fs } ∧ y = none) ∨ (y ≠ none ∧ x = st) := by
        intro x y he
        simp only [exec] at he
        split at he
        · simp only [Prod.mk.injEq] at he; left; exact ⟨he.2.symm, he.1.symm, ‹_›⟩
        · rcases exec_lift he with ⟨fs, hfs, rfl, hx⟩ | ⟨e', _, rfl, hx⟩
          · right; left; exact ⟨fs, hfs, rfl, hx⟩
          · right; right; exact ⟨by rw [hx]; simp, rfl⟩
      rcases crash_cons hc with rfl | hm | ⟨e, he⟩ | ⟨st1, he, hc2⟩
      · exact base _ rfl
      · cases hm
      · rcases hex _ _ he with ⟨hx, _⟩ | ⟨_, _, _, hx⟩ | ⟨_, rfl⟩
        · cases hx
        · cases hx
        · exact base _ rfl
      · rcases hex _ _ he with ⟨_, rfl, hdir⟩ | ⟨fs, hfs, rfl, _⟩ | ⟨hx, _⟩
        · -- already a directory (or a link to one)
          cases hg : st1.lower.get d with
          | none =>
            -- then chown fails, so nothing changes
            unfold permOps at hc2
            have hno : ∀ x y, exec (.chown d s.node.uid s.node.gid) st1 = (x, y) → x = st1 ∧ y ≠ none := by
              intro x y he
              simp only [exec] at he
              rcases exec_lift he with ⟨fs, hfs, _, _⟩ | ⟨e', _, rfl, hx⟩
              · obtain ⟨n, hn, _⟩ := FS.chown_plain h.wf h.nd h.noLink hfs
                rw [hg] at hn; cases hn
              · exact ⟨rfl, by rw [hx]; simp⟩
            rcases crash_cons hc2 with rfl | hm | ⟨e, he⟩ | ⟨st2, he, hc3⟩
            · exact base _ rfl
            · cases hm
            · exact base _ (by rw [(hno _ _ he).1])
            · exact absurd rfl (hno _ _ he).2
          | some n => exact final st1 n h.wf Agree.refl hg (Or.inr ⟨n, hg, rfl⟩) ht hc2
        · obtain ⟨rfl, hw2, _⟩ := FS.mkdir_plain h.wf h.nd h.noLink hfs
          have hk : s.node.kind = .dir := by
            unfold Node.supported at hsup
            simp only [hreg, hlnk, Bool.false_or, Bool.or_false] at hsup
            simpa [Node.isDir] using hsup
          refine final _ { kind := .dir, perm := 0o755, dev := st.lower.devOf d.dropLast } hw2 (agree_set (Or.inl rfl))
            (FS.get_set_self _ _ _) (Or.inl (by rw [hk])) ?_ hc2
          simp only; rw [FS.get_set, if_neg h.ne.symm, ht]
        · exact absurd rfl hx

end SB
