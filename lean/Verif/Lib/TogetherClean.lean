import Verif.Lib.TogetherRun
import Verif.Lib.Clean

/-! Several accepts at once: what is in the storage can be cleaned up only once (proof machinery). -/

namespace SB

theorem nolink_thin {u v : FS} (hw : u.WF) (ht : Thins u v) {p : Path} {n : Node} (hg : u.get p = some n) : ∀ q, Below q p → ∀ m, v.get q = some m → m.isLnk = false := by
  intro q hq m hm
  have := hw.ancestor hg hq
  obtain ⟨m', hm', hd⟩ := FS.isDirAt_iff.1 this
  rw [ht.get hm hw.nodup] at hm'
  cases hm'
  unfold Node.isDir at hd
  unfold Node.isLnk
  rw [eq_of_beq hd]; rfl

/-- A clean-up that succeeds found something, and has removed it. -/
theorem clean_gone {st0 st st' : State} (hw : st0.upper.WF) (ht : Thins st0.upper st.upper) {p : Path} (h : exec (.clean p) st = (st', none)) :
    (∃ n, st.upper.get p = some n) ∧ st'.upper.get p = none := by
  simp only [exec] at h
  cases hg : st.upper.get p with
  | none => rw [hg] at h; simp at h
  | some n =>
    refine ⟨⟨n, rfl⟩, ?_⟩
    have hg0 := ht.get hg hw.nodup
    have hN : NormalPath p := hw.normal p (FS.mem_keys.2 ⟨n, hg0⟩)
    rw [hg] at h
    dsimp only at h
    by_cases hd : n.isDir = true
    · rw [if_pos hd] at h
      unfold rmdirRecursive rmdirRecursiveF at h
      simp only [rmdirRecN, hg, hd, Bool.not_true, Bool.false_eq_true, if_false] at h
      have hthin := thins_entries (fault := fun _ => none) (thins_rec (fun _ => none) st.upper.length) (d := n.dev) (qs := st.upper.children p) (fs := st.upper)
      cases hr : rmEntries (fun _ => none) (rmdirRecN (fun _ => none) st.upper.length) n.dev (st.upper.children p) st.upper with
      | mk fs' x =>
        rw [hr] at h hthin
        cases x with
        | some e => simp at h
        | none =>
          dsimp only at h
          unfold faulty at h
          dsimp only at h
          cases hx : fs'.rmdir p with
          | error e => rw [hx] at h; simp at h
          | ok fs2 =>
            rw [hx] at h
            simp only [Prod.mk.injEq, and_true] at h
            obtain ⟨c, m, hc, _, _, _, _, rfl⟩ := FS.rmdir_ok hx
            have := FS.canon_nolink hN (nolink_thin hw (ht.trans hthin) hg0) hc
            rw [← h, this]
            simp only
            rw [FS.get_del, if_pos rfl]
    · rw [if_neg hd] at h
      cases hx : st.upper.unlink p with
      | error e => rw [hx] at h; simp at h
      | ok fs2 =>
        rw [hx] at h
        simp only [Prod.mk.injEq, and_true] at h
        obtain ⟨c, m, hc, _, _, rfl⟩ := FS.unlink_ok hx
        have := FS.canon_nolink hN (nolink_thin hw ht hg0) hc
        rw [← h, this]
        simp only
        rw [FS.get_del, if_pos rfl]

/-- What has been cleaned up: everything an accept has cleaned up is gone, and no two have cleaned up the same. -/
structure TClean (ws : List Accepting) (st : State) : Prop where
  gone : ∀ w ∈ ws, ∀ r, w.left = .ok r → ∃ before, before ++ r = plan w.env w.sel ∧ ∀ p, Op.clean p ∈ before → st.upper.get p = none
  apart : ws.Pairwise (fun w w' => ∀ r r' x x', w.left = .ok r → w'.left = .ok r' → x ++ r = plan w.env w.sel → x' ++ r' = plan w'.env w'.sel → ∀ p, Op.clean p ∈ x → Op.clean p ∉ x')

theorem thin_none {a b : FS} (h : Thins a b) (hd : a.keys.Nodup) {p : Path} (hg : a.get p = none) : b.get p = none := by
  by_contra hc
  obtain ⟨n, hn⟩ := Option.ne_none_iff_exists'.1 hc
  rw [h.get hn hd] at hg
  cases hg

theorem TClean.less {ws : List Accepting} {st st' : State} (h : TClean ws st) (hd : st.upper.keys.Nodup) (ht : Thins st.upper st'.upper) : TClean ws st' :=
  ⟨fun w hw r hr => by
    obtain ⟨x, hx, hp⟩ := h.gone w hw r hr
    exact ⟨x, hx, fun p hpx => thin_none ht hd (hp p hpx)⟩, h.apart⟩

/-- An accept that has ended with an error is out of the game. -/
theorem TClean.error {a b : List Accepting} {env : Env} {sel : List Entry} {l : Except AccErr (List Op)} {e : AccErr} {st : State} (h : TClean (a ++ ⟨env, sel, l⟩ :: b) st) :
    TClean (a ++ ⟨env, sel, .error e⟩ :: b) st := by
  refine ⟨fun w hw r hr => ?_, ?_⟩
  · rcases List.mem_append.1 hw with hw | hw
    · exact h.gone w (List.mem_append.2 (.inl hw)) r hr
    · rcases List.mem_cons.1 hw with rfl | hw
      · cases hr
      · exact h.gone w (by simp [hw]) r hr
  · have := h.apart
    rw [List.pairwise_append, List.pairwise_cons] at this ⊢
    refine ⟨this.1, ⟨fun w' hw' r r' x x' hr => (by cases hr), this.2.1.2⟩, fun w hw w' hw' => ?_⟩
    rcases List.mem_cons.1 hw' with rfl | hw'
    · intro r r' x x' _ hr'; cases hr'
    · exact this.2.2 w hw w' (List.mem_cons_of_mem _ hw')

theorem together_clean {st0 st : State} {ws : List Accepting} (hw : st0.upper.WF) (h : Together st0 ws st) : TClean ws st := by
  induction h with
  | none => exact ⟨fun w hw => (by cases hw), List.Pairwise.nil⟩
  | @start ws st env hprev hchk ih =>
    refine ⟨fun w hw' r hr => ?_, ?_⟩
    · rcases List.mem_append.1 hw' with hw' | hw'
      · exact ih.gone w hw' r hr
      · rw [List.mem_singleton] at hw'
        subst hw'
        cases hr
        exact ⟨[], rfl, fun p hp => by cases hp⟩
    · rw [List.pairwise_append]
      refine ⟨ih.apart, List.pairwise_singleton _ _, fun w hw' w' hw2 => ?_⟩
      rw [List.mem_singleton] at hw2
      subst hw2
      intro r r' x x' hr hr' hx hx' p hp hp'
      cases hr'
      have : x' = [] := by
        have := congrArg List.length hx'
        simp only [List.length_append] at this
        exact List.eq_nil_of_length_eq_zero (by omega)
      rw [this] at hp'
      cases hp'
  | @step a b env sel op r st st' hprev he ih =>
    have ht0 := thins_together hprev
    have hd : st.upper.keys.Nodup := ht0.nodup hw.nodup
    have hthin : Thins st.upper st'.upper := by have := thins_exec op st; rw [he] at this; exact this
    have cut : ∀ x, x ++ r = plan env sel → ∃ y, x = y ++ [op] ∧ y ++ op :: r = plan env sel := by
      intro x hx
      obtain ⟨y, hy, _⟩ := ih.gone ⟨env, sel, .ok (op :: r)⟩ (by simp) _ rfl
      dsimp only at hy
      refine ⟨y, ?_, hy⟩
      have : x ++ r = (y ++ [op]) ++ r := by rw [hx, ← hy]; simp
      exact List.append_cancel_right this
    refine ⟨fun w hw' r' hr' => ?_, ?_⟩
    · have other : w ∈ a ++ (⟨env, sel, .ok (op :: r)⟩ : Accepting) :: b → ∃ before, before ++ r' = plan w.env w.sel ∧ ∀ p, Op.clean p ∈ before → st'.upper.get p = none := by
        intro hm
        obtain ⟨x, hx, hp⟩ := ih.gone w hm r' hr'
        exact ⟨x, hx, fun p hpx => thin_none hthin hd (hp p hpx)⟩
      rcases List.mem_append.1 hw' with hw' | hw'
      · exact other (List.mem_append.2 (.inl hw'))
      · rcases List.mem_cons.1 hw' with rfl | hw'
        · cases hr'
          obtain ⟨x, hx, hp⟩ := ih.gone ⟨env, sel, .ok (op :: r)⟩ (by simp) _ rfl
          refine ⟨x ++ [op], by rw [← hx]; simp, fun p hpx => ?_⟩
          rcases List.mem_append.1 hpx with hpx | hpx
          · exact thin_none hthin hd (hp p hpx)
          · rw [List.mem_singleton] at hpx
            subst hpx
            exact (clean_gone hw ht0 he).2
        · exact other (by simp [hw'])
    · -- a path cleaned up by another is gone: this one cannot have been cleaned up now
      have noTwice : ∀ w ∈ a ++ (⟨env, sel, .ok (op :: r)⟩ : Accepting) :: b, ∀ r' x', w.left = .ok r' → x' ++ r' = plan w.env w.sel → ∀ p, op = .clean p → Op.clean p ∉ x' := by
        rintro w hm r' x' hr' hx' p rfl hp
        obtain ⟨x, hx, hg⟩ := ih.gone w hm r' hr'
        have : x = x' := List.append_cancel_right (hx.trans hx'.symm)
        subst this
        obtain ⟨⟨n, hn⟩, _⟩ := clean_gone hw ht0 he
        rw [hg p hp] at hn
        cases hn
      have hap := ih.apart
      rw [List.pairwise_append, List.pairwise_cons] at hap ⊢
      refine ⟨hap.1, ⟨fun w' hw' r1 r' x x' hr1 hr' hx hx' p hp hp' => ?_, hap.2.1.2⟩, fun w hwa w' hw' => ?_⟩
      · cases hr1
        obtain ⟨y, rfl, hy⟩ := cut x hx
        rcases List.mem_append.1 hp with hp | hp
        · exact hap.2.1.1 w' hw' (op :: r) r' y x' rfl hr' hy hx' p hp hp'
        · rw [List.mem_singleton] at hp
          exact noTwice w' (by simp [hw']) r' x' hr' hx' p hp.symm hp'
      · rcases List.mem_cons.1 hw' with rfl | hw'
        · intro r1 r' x x' hr1 hr' hx hx' p hp hp'
          cases hr'
          obtain ⟨y, rfl, hy⟩ := cut x' hx'
          rcases List.mem_append.1 hp' with hp' | hp'
          · exact hap.2.2 w hwa ⟨env, sel, .ok (op :: r)⟩ (by simp) r1 (op :: r) x y hr1 rfl hx hy p hp hp'
          · rw [List.mem_singleton] at hp'
            exact noTwice w (by simp [hwa]) r1 x hr1 hx p hp'.symm hp
        · exact hap.2.2 w hwa w' (List.mem_cons_of_mem _ hw')
  | @fail a b env sel op r st st' e hprev he ih =>
    have hd : st.upper.keys.Nodup := (thins_together hprev).nodup hw.nodup
    exact (ih.less hd (by have := thins_exec op st; rw [he] at this; exact this)).error
  | half hprev hm ih => exact ih.less ((thins_together hprev).nodup hw.nodup) (thins_mid hm)
  | broken e hprev hm ih => exact (ih.less ((thins_together hprev).nodup hw.nodup) (thins_mid hm)).error
  | stop e hprev ih => exact ih.error
  | lateHalf hop hprev hm ih => exact ⟨ih.gone, ih.apart⟩
  | @late a b env sel op r st st' hop hprev he ih =>
    have cut : ∀ x, x ++ r = plan env sel → ∃ y, x = y ++ [op] ∧ y ++ op :: r = plan env sel := by
      intro x hx
      obtain ⟨y, hy, _⟩ := ih.gone ⟨env, sel, .ok (op :: r)⟩ (by simp) _ rfl
      dsimp only at hy
      refine ⟨y, ?_, hy⟩
      have : x ++ r = (y ++ [op]) ++ r := by rw [hx, ← hy]; simp
      exact List.append_cancel_right this
    refine ⟨fun w hw' r' hr' => ?_, ?_⟩
    · rcases List.mem_append.1 hw' with hw' | hw'
      · exact ih.gone w (List.mem_append.2 (.inl hw')) r' hr'
      · rcases List.mem_cons.1 hw' with rfl | hw'
        · cases hr'
          obtain ⟨x, hx, hp⟩ := ih.gone ⟨env, sel, .ok (op :: r)⟩ (by simp) _ rfl
          refine ⟨x ++ [op], by rw [← hx]; simp, fun p hpx => ?_⟩
          rcases List.mem_append.1 hpx with hpx | hpx
          · exact hp p hpx
          · rw [List.mem_singleton] at hpx
            exact absurd hpx.symm (hop p)
        · exact ih.gone w (by simp [hw']) r' hr'
    · have hap := ih.apart
      rw [List.pairwise_append, List.pairwise_cons] at hap ⊢
      refine ⟨hap.1, ⟨fun w' hw' r1 r' x x' hr1 hr' hx hx' p hp hp' => ?_, hap.2.1.2⟩, fun w hwa w' hw' => ?_⟩
      · cases hr1
        obtain ⟨y, rfl, hy⟩ := cut x hx
        rcases List.mem_append.1 hp with hp | hp
        · exact hap.2.1.1 w' hw' (op :: r) r' y x' rfl hr' hy hx' p hp hp'
        · rw [List.mem_singleton] at hp
          exact hop p hp.symm
      · rcases List.mem_cons.1 hw' with rfl | hw'
        · intro r1 r' x x' hr1 hr' hx hx' p hp hp'
          cases hr'
          obtain ⟨y, rfl, hy⟩ := cut x' hx'
          rcases List.mem_append.1 hp' with hp' | hp'
          · exact hap.2.2 w hwa ⟨env, sel, .ok (op :: r)⟩ (by simp) r1 (op :: r) x y hr1 rfl hx hy p hp hp'
          · rw [List.mem_singleton] at hp'
            exact hop p hp'.symm
        · exact hap.2.2 w hwa w' (List.mem_cons_of_mem _ hw')
  | drop keep hprev ih => exact ih.less ((thins_together hprev).nodup hw.nodup) ⟨_, rfl⟩

end SB
