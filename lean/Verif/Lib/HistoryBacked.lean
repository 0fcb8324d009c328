import Verif.Lib.HistoryNeat

/-! In a history without moves a whiteout is only stored for what the host has (proof machinery for C108). -/

namespace SB
open Spec

/-- What is marked as deleted is on the host. -/
def Backed (mounts : List MountHash) (st : State) : Prop :=
  ∀ m ∈ mounts, ∀ sub n, sub ≠ [] → st.upper.get (m.hash :: sub) = some n → isWhiteout n = true → ∃ k, st.lower.get (m.dir ++ sub) = some k

theorem lowerPositive_host {st : State} (hs : Regular st) {m : Name} {mp sub : Path} (ht : TopOk st m mp) (hsub : sub ≠ []) (h : lowerPositive st m mp sub = true) :
    ∃ k, st.lower.get (mp ++ sub) = some k := by
  have hcl := lookup_closed hs.host hs.upper ht.1 ht.2 hs.redirect (fun q n hg hw => by rw [hs.whiteout q n hg] at hw; cases hw) sub.dropLast.reverse
  rw [List.reverse_reverse] at hcl
  unfold lowerPositive Spec.lookup at h
  have key : ∀ l, (∃ d, lookupRev st m mp sub.dropLast.reverse = some d ∧ d.lower = some l) → l = mp ++ sub.dropLast := by
    rintro l ⟨d, hd, hl⟩
    cases hg : st.upper.get (m :: sub.dropLast) with
    | none =>
      by_cases hh : HiddenAt st m sub.dropLast.reverse
      · rw [(hcl.2 hg).1 hh] at hd; cases hd
      · rw [(hcl.2 hg).2 hh] at hd
        unfold present at hd
        split at hd
        · cases hd; cases hl; rfl
        · cases hd
    | some n =>
      obtain ⟨c1, c2⟩ := hcl.1 n hg
      cases hw : isWhiteout n with
      | true => rw [c1 hw] at hd; cases hd
      | false =>
        obtain ⟨L, hL, h1, h2⟩ := c2 hw
        rw [hL] at hd
        cases hd
        dsimp only at hl
        by_cases hh : HiddenAt st m sub.dropLast.reverse
        · rw [h1 hh] at hl; cases hl
        · rw [h2 hh] at hl
          unfold presentDir at hl
          split at hl
          · split at hl
            · cases hl; rfl
            · cases hl
          · cases hl
  split at h
  · cases h
  · next d hd =>
    split at h
    · cases h
    · next l hl =>
      have := key l ⟨d, hd, hl⟩
      subst this
      have he : mp ++ sub.dropLast ++ sub.drop (sub.length - 1) = mp ++ sub := by
        rw [List.append_assoc, List.dropLast_eq_take, List.take_append_drop]
      rw [he] at h
      exact Option.isSome_iff_exists.1 h

section
variable {mounts : List MountHash} {T : Path → Prop} {host : FS} {st : State} {fs : FS}

theorem Backed.step (hm : MountsOk mounts) (h : Hist mounts T host st fs) (hb : Backed mounts st) {a : Act} (ha : ActOk mounts a) : Backed mounts (actIn mounts st a) := by
  obtain ⟨m, hmf⟩ := ha.mount
  obtain ⟨hmm, hpre, hdeep⟩ := mountFor_some hmf
  unfold actIn
  rw [hmf]
  by_cases he : m.dir = a.path
  · simp only [he, if_true]; exact hb
  simp only [if_neg he]
  obtain ⟨sub, hsub⟩ := hpre
  have hsub0 : sub ≠ [] := by rintro rfl; exact he (by simpa using hsub)
  rw [← hsub, List.drop_left]
  have hs := h.regular
  have ht := h.tops m hmm
  have hNh : NormalName m.hash := by
    obtain ⟨t, ht1, _⟩ := FS.isDirAt_iff.1 (h.tops m hmm).2
    exact h.regular.upper.normal_of_get ht1 m.hash (by simp)
  have hNsub : NormalPath sub := by have := ha.normal; rw [← hsub] at this; exact this.of_append_right
  have hcons : ∀ y, NormalPath y → NormalPath (m.hash :: y) := by
    intro y hy n hn
    rcases List.mem_cons.1 hn with rfl | hn
    · exact hNh
    · exact hy n hn
  rcases act_written hs ht hsub0 (fun y hy => hcons y (hNsub.of_prefix hy)) (fun y ⟨n, hn⟩ => by
      cases hg : st.upper.get (m.hash :: y) with
      | some k => exact h.regular.upper.normal_of_get hg
      | none => exact hcons y (h.regular.host.normal_of_get (view_host h.regular (h.tops m hmm) hg hn)).of_append_right) a.what with hsame | ⟨o, W, S, ho, hgone⟩
  · rw [hsame]; exact hb
  generalize hu : actUpper st m.hash m.dir sub a.what = u at W hgone
  intro m' hm' y n hy hg hwn
  dsimp only at hg ⊢
  by_cases hq : m'.hash :: y = m.hash :: sub
  · obtain ⟨h1, rfl⟩ := List.cons.inj hq
    have : m' = m := List.inj_on_of_nodup_map hm.hashes hm' hmm h1
    subst this
    rw [W.at_] at hg
    have hwf := (ho n hg).2
    generalize hwt : a.what = wt at S
    cases S with
    | @put k uid gid perm n1 hk _ _ _ _ =>
      cases hg
      exfalso
      unfold isWhiteout at hwn
      rw [hwf, Bool.or_false, beq_iff_eq, hk] at hwn
      subst hwn
      exact ha.device 0 uid gid perm hwt rfl
    | mkdir hk => cases hg; exact absurd hwn (by rw [not_whiteout_dir (by simp [Node.isDir, hk]) hwf]; decide)
    | attr hk => cases hg; exact absurd hwn (by rw [not_whiteout_dir (by simp [Node.isDir, hk]) hwf]; decide)
    | whiteout _ _ _ _ hlp => exact lowerPositive_host hs ht hsub0 hlp
    | gone => cases hg
  · have old : u.get (m'.hash :: y) = st.upper.get (m'.hash :: y) → ∃ k, st.lower.get (m'.dir ++ y) = some k := fun e => hb m' hm' y n hy (by rw [← e]; exact hg) hwn
    by_cases hbl : Below (m.hash :: sub) (m'.hash :: y)
    · obtain ⟨w, hw, e⟩ := hbl
      obtain ⟨h1, rfl⟩ := List.cons.inj e
      rw [h1] at old hg
      rcases W.below (sub ++ w) ⟨w, hw, rfl⟩ with h' | h'
      · exact old h'
      · rw [show sub.append w = sub ++ w from rfl, h'] at hg; cases hg
    · rcases W.off _ hq hbl with h' | ⟨_, y', k, h1, h2, h3, h4, _, h6, h7⟩
      · exact old h'
      · rw [h4] at hg; cases hg
        have hp := hs.plain _ k h6
        have hnw : isWhiteout ({ k with dev := devAt st.upper [m.hash] } : Node) = false := not_whiteout_dir h7 hp.2.2
        rw [hnw] at hwn; cases hwn

theorem Backed.run (hm : MountsOk mounts) : ∀ (acts : List Act) {st : State} {fs : FS}, Hist mounts T host st fs → Backed mounts st → (∀ a ∈ acts, ActOk mounts a ∧ T a.path) →
    Backed mounts (runIn mounts st acts)
  | [], _, _, _, hb, _ => hb
  | a :: acts, st, fs, h, hb, ha => by
    obtain ⟨h1, h2⟩ := ha a (by simp)
    have := Backed.run hm acts (h.step hm h1 h2) (hb.step hm h h1) (fun b hb => ha b (by simp [hb]))
    simpa [runIn] using this

end

end SB
