import Verif.Lib.HistoryNeat

/-! The types and opaque marks of what a history stores (proof machinery for C106 and C107). -/

namespace SB
open Spec

section
variable {mounts : List MountHash} {T : Path → Prop} {host : FS} {st : State} {fs : FS}

/-- The type and the opaque mark of everything stored are in `Q`. -/
def Kinds (Q : Kind → Bool → Prop) (st : State) : Prop := ∀ q n, st.upper.get q = some n → Q n.kind n.opq

theorem Kinds.step {Q : Kind → Bool → Prop} (hd : Q .dir false) (hwh : Q (.chr 0) false) (h : Hist mounts T host st fs) (hk : Kinds Q st) {a : Act} (ha : ActOk mounts a)
    (hQ : ∀ k uid gid perm, a.what = .put k uid gid perm → Q k false) (hM : ∀ uid gid perm opq, a.what = .mkdir uid gid perm opq → ∀ b, Q .dir b) : Kinds Q (actIn mounts st a) := by
  obtain ⟨m, hmf⟩ := ha.mount
  obtain ⟨hmm, hpre, hdeep⟩ := mountFor_some hmf
  unfold actIn
  rw [hmf]
  by_cases he : m.dir = a.path
  · simp only [he, if_true]; exact hk
  simp only [if_neg he]
  obtain ⟨sub, hsub⟩ := hpre
  have hsub0 : sub ≠ [] := by rintro rfl; exact he (by simpa using hsub)
  rw [← hsub, List.drop_left]
  have hs := h.regular
  have ht := h.tops m hmm
  have hNh : NormalName m.hash := by
    obtain ⟨t, ht1, _⟩ := FS.isDirAt_iff.1 (h.tops m hmm).2
    exact h.regular.upper.normal_of_get ht1 m.hash (by simp)
  have hNsub : NormalPath sub := by have := ha.normal; rw [← hsub] at this; exact this.of_append_right
  have hcons : ∀ y, NormalPath y → NormalPath (m.hash :: y) := by
    intro y hy n hn
    rcases List.mem_cons.1 hn with rfl | hn
    · exact hNh
    · exact hy n hn
  rcases act_written hs ht hsub0 (fun y hy => hcons y (hNsub.of_prefix hy)) (fun y ⟨n, hn⟩ => by
      cases hg : st.upper.get (m.hash :: y) with
      | some k => exact h.regular.upper.normal_of_get hg
      | none => exact hcons y (h.regular.host.normal_of_get (view_host h.regular (h.tops m hmm) hg hn)).of_append_right) a.what with hsame | ⟨o, W, S, ho, hgone⟩
  · rw [hsame]; exact hk
  generalize hu : actUpper st m.hash m.dir sub a.what = u at W hgone
  intro q n hg
  dsimp only at hg
  by_cases hq : q = m.hash :: sub
  · subst hq
    rw [W.at_] at hg
    generalize hwt : a.what = wt at S
    cases S with
    | put h1 _ h2 => cases hg; rw [h1, h2]; exact hQ _ _ _ _ hwt
    | mkdir h1 => cases hg; rw [h1]; exact hM _ _ _ _ hwt _
    | @attr uid gid perm n1 n0 h1 hv hdir h2 =>
      cases hg
      rw [h1, h2]
      cases hg0 : st.upper.get (m.hash :: sub) with
      | none => rw [(hs.plain _ n0 (view_host hs ht hg0 hv)).2.1]; exact hd
      | some k =>
        obtain ⟨v1, _⟩ := hs.view ht sub
        cases hw : isWhiteout k with
        | true => rw [(v1 k hg0).1 hw] at hv; cases hv
        | false =>
          rw [(v1 k hg0).2 hw] at hv
          cases hv
          have := hk _ n0 hg0
          have hkd : n0.kind = .dir := by simpa [Node.isDir] using hdir
          rw [hkd] at this
          exact this
    | whiteout h1 h2 => cases hg; rw [h1, h2]; exact hwh
    | gone => cases hg
  · by_cases hbl : Below (m.hash :: sub) q
    · obtain ⟨w, hw, rfl⟩ := hbl
      rcases W.below (sub ++ w) ⟨w, hw, rfl⟩ with h' | h'
      · rw [← List.cons_append] at h'
        exact hk _ n (by rw [← h']; exact hg)
      · rw [← List.cons_append] at h'
        rw [h'] at hg; cases hg
    · rcases W.off _ hq hbl with h' | ⟨_, y', k, h1, h2, h3, h4, _, h6, h7⟩
      · exact hk _ n (by rw [← h']; exact hg)
      · rw [h4] at hg; cases hg
        have : k.kind = .dir := by simpa [Node.isDir] using h7
        dsimp only
        rw [this, (hs.plain _ k h6).2.1]; exact hd

theorem Kinds.run {Q : Kind → Bool → Prop} (hd : Q .dir false) (hwh : Q (.chr 0) false) (hm : MountsOk mounts) : ∀ (acts : List Act) {st : State} {fs : FS}, Hist mounts T host st fs → Kinds Q st →
    (∀ a ∈ acts, ActOk mounts a ∧ T a.path ∧ (∀ k uid gid perm, a.what = .put k uid gid perm → Q k false) ∧ ∀ uid gid perm opq, a.what = .mkdir uid gid perm opq → ∀ b, Q .dir b) → Kinds Q (runIn mounts st acts)
  | [], _, _, _, hb, _ => hb
  | a :: acts, st, fs, h, hb, ha => by
    obtain ⟨h1, h2, h3, h4⟩ := ha a (by simp)
    have := Kinds.run hd hwh hm acts (h.step hm h1 h2) (hb.step hd hwh h h1 h3 h4) (fun b hb => ha b (by simp [hb]))
    simpa [runIn] using this

theorem devAt_of {up : FS} {dev : Nat} (h : ∀ q n, up.get q = some n → n.dev = dev) {p : Path} {n : Node} (hg : up.get p = some n) : devAt up p = dev := by
  unfold devAt
  rw [hg]
  exact h p n hg

/-- Everything is stored on one file system. -/
theorem devs_step {dev : Nat} (h : Hist mounts T host st fs) (hk : ∀ q n, st.upper.get q = some n → n.dev = dev) {a : Act} (ha : ActOk mounts a) :
    ∀ q n, (actIn mounts st a).upper.get q = some n → n.dev = dev := by
  obtain ⟨m, hmf⟩ := ha.mount
  obtain ⟨hmm, hpre, hdeep⟩ := mountFor_some hmf
  unfold actIn
  rw [hmf]
  by_cases he : m.dir = a.path
  · simp only [he, if_true]; exact hk
  simp only [if_neg he]
  obtain ⟨sub, hsub⟩ := hpre
  have hsub0 : sub ≠ [] := by rintro rfl; exact he (by simpa using hsub)
  rw [← hsub, List.drop_left]
  have hs := h.regular
  have ht := h.tops m hmm
  obtain ⟨t, ht1, _⟩ := FS.isDirAt_iff.1 (h.tops m hmm).2
  have hNh : NormalName m.hash := h.regular.upper.normal_of_get ht1 m.hash (by simp)
  have hdv : devAt st.upper [m.hash] = dev := devAt_of hk ht1
  have hNsub : NormalPath sub := by have := ha.normal; rw [← hsub] at this; exact this.of_append_right
  have hcons : ∀ y, NormalPath y → NormalPath (m.hash :: y) := by
    intro y hy n hn
    rcases List.mem_cons.1 hn with rfl | hn
    · exact hNh
    · exact hy n hn
  rcases act_written hs ht hsub0 (fun y hy => hcons y (hNsub.of_prefix hy)) (fun y ⟨n, hn⟩ => by
      cases hg : st.upper.get (m.hash :: y) with
      | some k => exact h.regular.upper.normal_of_get hg
      | none => exact hcons y (h.regular.host.normal_of_get (view_host h.regular (h.tops m hmm) hg hn)).of_append_right) a.what with hsame | ⟨o, W, S, ho, hgone⟩
  · rw [hsame]; exact hk
  generalize hu : actUpper st m.hash m.dir sub a.what = u at W hgone
  intro q n hg
  by_cases hq : q = m.hash :: sub
  · subst hq
    rw [W.at_] at hg
    generalize hwt : a.what = wt at S
    cases S with
    | put _ _ _ h4 => cases hg; exact h4.trans hdv
    | mkdir _ _ _ h4 => cases hg; exact h4.trans hdv
    | attr _ _ _ _ h4 => cases hg; exact h4.trans hdv
    | whiteout _ _ h4 => cases hg; exact h4.trans hdv
    | gone => cases hg
  · by_cases hbl : Below (m.hash :: sub) q
    · obtain ⟨w, hw, rfl⟩ := hbl
      rcases W.below (sub ++ w) ⟨w, hw, rfl⟩ with h' | h'
      · rw [← List.cons_append] at h'
        exact hk _ n (by rw [← h']; exact hg)
      · rw [← List.cons_append] at h'
        rw [h'] at hg; cases hg
    · rcases W.off _ hq hbl with h' | ⟨_, y', k, h1, h2, h3, h4, _, h6, h7⟩
      · exact hk _ n (by rw [← h']; exact hg)
      · rw [h4] at hg; cases hg
        exact hdv

theorem devs_run {dev : Nat} (hm : MountsOk mounts) : ∀ (acts : List Act) {st : State} {fs : FS}, Hist mounts T host st fs → (∀ q n, st.upper.get q = some n → n.dev = dev) →
    (∀ a ∈ acts, ActOk mounts a ∧ T a.path) → ∀ q n, (runIn mounts st acts).upper.get q = some n → n.dev = dev
  | [], _, _, _, hb, _ => hb
  | a :: acts, st, fs, h, hb, ha => by
    obtain ⟨h1, h2⟩ := ha a (by simp)
    have := devs_run hm acts (h.step hm h1 h2) (devs_step h hb h1) (fun b hb => ha b (by simp [hb]))
    simpa [runIn] using this

end

end SB
