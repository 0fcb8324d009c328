import Verif.Lib.HistoryRun

/-! What histories store: marks, files and directories (proof machinery for `C84_whole_partial`). -/

namespace SB
open Spec

/-- What one operation stores at its path. -/
inductive Stores (st : State) (m : Name) (mp sub : Path) : What → Option Node → Prop where
  | put {k uid gid perm n} : n.kind = k → k ≠ .dir → n.opq = false → n.dev = devAt st.upper [m] → (∀ y, Below sub y → st.upper.get (m :: y) = none) → Stores st m mp sub (.put k uid gid perm) (some n)
  | mkdir {uid gid perm opq n} : n.kind = .dir → Spec.view st m mp sub = none → (∀ y, Below sub y → st.upper.get (m :: y) = none) → n.dev = devAt st.upper [m] →
      (n.opq = true → merged st m mp sub.dropLast = true ∨ (st.upper.get (m :: sub)).isSome = true) → ((st.upper.get (m :: sub)).isSome = true → n.opq = true) →
      Stores st m mp sub (.mkdir uid gid perm opq) (some n)
  | attr {uid gid perm n n0} : n.kind = .dir → Spec.view st m mp sub = some n0 → n0.isDir = true → n.opq = n0.opq → n.dev = devAt st.upper [m] → Stores st m mp sub (.attr uid gid perm) (some n)
  | whiteout {n} : n.kind = .chr 0 → n.opq = false → n.dev = devAt st.upper [m] → merged st m mp sub.dropLast = true → lowerPositive st m mp sub = true → Stores st m mp sub .remove (some n)
  | gone : Stores st m mp sub .remove none

/-- What one operation writes. -/
theorem act_written {st : State} (hs : Regular st) {m : Name} {mp sub : Path} (ht : TopOk st m mp) (hsub : sub ≠ []) (hN : ∀ y, y <+: sub → NormalPath (m :: y))
    (hNv : ∀ y, (∃ n, Spec.view st m mp y = some n) → NormalPath (m :: y)) (w : What) :
    actUpper st m mp sub w = st.upper ∨ ∃ o, Written st m mp sub o (actUpper st m mp sub w) ∧ Stores st m mp sub w o ∧ (∀ n, o = some n → n.redirect = none ∧ n.whiteout = false) ∧
      (w = .remove → ∀ y, Below sub y → (actUpper st m mp sub w).get (m :: y) = none) := by
  cases hpar : dirSeen (Spec.view st m mp sub.dropLast) with
  | false => left; unfold actUpper; simp [hpar]
  | true =>
    cases w with
    | put k uid gid perm =>
      simp only [actUpper, hpar, Bool.not_true, Bool.false_eq_true, if_false]
      by_cases hc : (dirSeen (Spec.view st m mp sub) || k == .dir) = true
      · rw [if_pos hc]; exact Or.inl rfl
      · rw [if_neg hc]
        have hnd : dirSeen (Spec.view st m mp sub) = false := by simp at hc; exact hc.1
        have hkd : k ≠ .dir := by simp at hc; exact hc.2
        obtain ⟨W, _⟩ := written_set hs ht hsub hN hNv hpar (n := { fileNode k uid gid perm with dev := devAt st.upper [m] }) (fun _ y hb => nothing_stored hs ht hb hnd)
        exact Or.inr ⟨_, W, .put rfl hkd rfl rfl (fun y hb => nothing_stored hs ht hb hnd), (fun n h => by cases h; exact ⟨rfl, rfl⟩), (fun h => by cases h)⟩
    | mkdir uid gid perm opq =>
      simp only [actUpper, hpar, Bool.not_true, Bool.false_eq_true, if_false]
      by_cases hc : (Spec.view st m mp sub).isSome = true
      · rw [if_pos hc]; exact Or.inl rfl
      · rw [if_neg hc]
        have hvn : Spec.view st m mp sub = none := by simpa using hc
        have hnd : dirSeen (Spec.view st m mp sub) = false := by rw [hvn]; rfl
        obtain ⟨W, _⟩ := written_set hs ht hsub hN hNv hpar
          (n := { fileNode .dir uid gid perm with opq := (opq && merged st m mp sub.dropLast) || (st.upper.get (m :: sub)).isSome, dev := devAt st.upper [m] }) (fun h => by simp [Node.isDir, fileNode] at h)
        refine Or.inr ⟨_, W, .mkdir rfl hvn (fun y hb => nothing_stored hs ht hb hnd) rfl (fun h => ?_) (fun h => ?_), (fun n h => by cases h; exact ⟨rfl, rfl⟩), (fun h => by cases h)⟩
        · simp only [Bool.or_eq_true, Bool.and_eq_true] at h
          rcases h with h | h
          · exact Or.inl h.2
          · exact Or.inr h
        · simp [h]
    | attr uid gid perm =>
      simp only [actUpper, hpar, Bool.not_true, Bool.false_eq_true, if_false]
      cases hv : Spec.view st m mp sub with
      | none => exact Or.inl rfl
      | some n =>
        simp only
        by_cases hd : n.isDir = true
        · rw [if_pos hd]
          obtain ⟨p1, p2⟩ := view_overlay hs ht hv
          have hd' : ({ n with uid := uid, gid := gid, perm := perm, dev := devAt st.upper [m] } : Node).isDir = true := hd
          obtain ⟨W, hbel⟩ := written_set hs ht hsub hN hNv hpar (n := { n with uid := uid, gid := gid, perm := perm, dev := devAt st.upper [m] }) (fun h => by rw [hd'] at h; cases h)
          exact Or.inr ⟨_, W, .attr (by simpa [Node.isDir] using hd) hv hd rfl rfl, (fun k h => by cases h; exact ⟨p1, p2⟩), (fun h => by cases h)⟩
        · rw [if_neg hd]; exact Or.inl rfl
    | remove =>
      simp only [actUpper, hpar, Bool.not_true, Bool.false_eq_true, if_false]
      cases hv : Spec.view st m mp sub with
      | none => exact Or.inl rfl
      | some n =>
        simp only
        by_cases hc : (n.isDir && childSeen st m mp sub) = true
        · rw [if_pos hc]; exact Or.inl rfl
        · rw [if_neg hc]
          right
          cases hlp : lowerPositive st m mp sub with
          | true =>
            simp only [if_true]
            refine ⟨_, written_prune hs ht hsub hN hNv hpar (o := some { kind := .chr 0, dev := devAt st.upper [m] }) (fun k h => by cases h; rfl) _ rfl, .whiteout rfl rfl rfl ?_ hlp,
              (fun k h => by cases h; exact ⟨rfl, rfl⟩), fun _ y hb => ?_⟩
            · unfold lowerPositive at hlp
              unfold merged
              split at hlp
              · cases hlp
              · next d hd =>
                split at hlp
                · cases hlp
                · next l hl => simp only [hl]; rfl
            · rw [FS.get_set, if_neg (fun e => hb.ne (List.cons.inj e).2), get_prune, if_pos (below_cons hb).prefix]
          | false =>
            simp only [Bool.false_eq_true, if_false]
            refine ⟨_, written_prune hs ht hsub hN hNv hpar (o := none) (fun k h => by cases h) _ rfl, .gone, (fun k h => by cases h), fun _ y hb => ?_⟩
            rw [get_prune, if_pos (below_cons hb).prefix]

/-- A merged directory is not hidden. -/
theorem merged_clear {st : State} (hs : Regular st) {m : Name} {mp : Path} (ht : TopOk st m mp) {y : Path} (h : merged st m mp y = true) : ¬ HiddenAt st m y.reverse := by
  intro hh
  have hcl := lookup_closed hs.host hs.upper ht.1 ht.2 hs.redirect (fun q n hg hw => by rw [hs.whiteout q n hg] at hw; cases hw) y.reverse
  rw [List.reverse_reverse] at hcl
  unfold merged Spec.lookup at h
  cases hg : st.upper.get (m :: y) with
  | none =>
    rw [(hcl.2 hg).1 hh] at h
    cases h
  | some n =>
    obtain ⟨c1, c2⟩ := hcl.1 n hg
    cases hw : isWhiteout n with
    | true => rw [c1 hw] at h; cases h
    | false =>
      obtain ⟨L, hL, h1, _⟩ := c2 hw
      rw [hL, h1 hh] at h
      cases h

/-- What is stored is neat: `P`: paths at which something was put, `R`: paths removed. -/
structure Neat (mounts : List MountHash) (P R : Path → Prop) (dev : Nat) (st : State) : Prop where
  clear : ∀ m ∈ mounts, ∀ sub n, sub ≠ [] → st.upper.get (m.hash :: sub) = some n → (isWhiteout n = true ∨ n.opq = true) → ∀ q, q ≠ [] → Below q sub → ¬ HidesOpt (st.upper.get (m.hash :: q))
  removed : ∀ m ∈ mounts, ∀ sub n k, sub ≠ [] → st.upper.get (m.hash :: sub) = some n → (isWhiteout n = true ∨ n.opq = true) → st.lower.get (m.dir ++ sub) = some k → R (m.dir ++ sub)
  files : ∀ m ∈ mounts, ∀ sub n, sub ≠ [] → st.upper.get (m.hash :: sub) = some n → isWhiteout n = false → n.isDir = false →
    P (m.dir ++ sub) ∧ (Spec.ftype n.kind = .file ∨ Spec.ftype n.kind = .symlink)
  dirs : ∀ m ∈ mounts, ∀ sub n k, sub ≠ [] → st.upper.get (m.hash :: sub) = some n → n.isDir = true → st.lower.get (m.dir ++ sub) = some k → k.isDir = false →
    n.opq = true ∨ ∃ q, q ≠ [] ∧ Below q sub ∧ HidesOpt (st.upper.get (m.hash :: q))
  dev : ∀ q n, st.upper.get q = some n → n.dev = dev

section
variable {mounts : List MountHash} {T P R : Path → Prop} {host : FS} {st : State} {fs : FS} {dev : Nat}

theorem Neat.step (hm : MountsOk mounts) (h : Hist mounts T host st fs) (hn : Neat mounts P R dev st) {a : Act} (ha : ActOk mounts a)
    (hP : ∀ k uid gid perm, a.what = .put k uid gid perm → P a.path ∧ (Spec.ftype k = .file ∨ Spec.ftype k = .symlink ∨ k = .dir)) (hR : a.what = .remove → R a.path) :
    Neat mounts P R dev (actIn mounts st a) := by
  obtain ⟨m, hmf⟩ := ha.mount
  obtain ⟨hmm, hpre, hdeep⟩ := mountFor_some hmf
  unfold actIn
  rw [hmf]
  by_cases he : m.dir = a.path
  · simp only [he, if_true]; exact hn
  simp only [if_neg he]
  obtain ⟨sub, hsub⟩ := hpre
  have hsub0 : sub ≠ [] := by rintro rfl; exact he (by simpa using hsub)
  rw [← hsub, List.drop_left]
  rw [← hsub] at hmf hP hR
  have hs := h.regular
  have ht := h.tops m hmm
  have hNh : NormalName m.hash := by
    obtain ⟨t, ht1, _⟩ := FS.isDirAt_iff.1 (h.tops m hmm).2
    exact h.regular.upper.normal_of_get ht1 m.hash (by simp)
  have hNsub : NormalPath sub := by have := ha.normal; rw [← hsub] at this; exact this.of_append_right
  have hcons : ∀ y, NormalPath y → NormalPath (m.hash :: y) := by
    intro y hy n hn
    rcases List.mem_cons.1 hn with rfl | hn
    · exact hNh
    · exact hy n hn
  rcases act_written hs ht hsub0 (fun y hy => hcons y (hNsub.of_prefix hy)) (fun y ⟨n, hn⟩ => by
      cases hg : st.upper.get (m.hash :: y) with
      | some k => exact h.regular.upper.normal_of_get hg
      | none => exact hcons y (h.regular.host.normal_of_get (view_host h.regular (h.tops m hmm) hg hn)).of_append_right) a.what with hsame | ⟨o, W, S, ho, hgone⟩
  · rw [hsame]; exact hn
  have hhash : ∀ m' ∈ mounts, m'.hash = m.hash → m' = m := fun m' hm' e => List.inj_on_of_nodup_map hm.hashes hm' hmm e
  generalize hu : actUpper st m.hash m.dir sub a.what = u at W hgone
  have hs' := W.regular hs ho
  have htop : devAt st.upper [m.hash] = dev := by
    obtain ⟨t, ht1, _⟩ := FS.isDirAt_iff.1 (h.tops m hmm).2
    unfold devAt; rw [ht1]; exact hn.dev _ t ht1
  -- the three sources of what is stored afterwards
  have hcases : ∀ q n, u.get q = some n → st.upper.get q = some n ∧ q ≠ m.hash :: sub ∨ (q = m.hash :: sub ∧ o = some n) ∨
      (∃ y n0, q = m.hash :: y ∧ y ≠ [] ∧ Below y sub ∧ n = { n0 with dev := devAt st.upper [m.hash] } ∧ st.lower.get (m.dir ++ y) = some n0 ∧ n0.isDir = true) := by
    intro q n hg
    by_cases hq : q = m.hash :: sub
    · subst hq; rw [W.at_] at hg; exact Or.inr (Or.inl ⟨rfl, hg⟩)
    · by_cases hb : Below (m.hash :: sub) q
      · obtain ⟨w, hw, rfl⟩ := hb
        rcases W.below (sub ++ w) ⟨w, hw, rfl⟩ with h' | h'
        · rw [← List.cons_append] at h'
          rw [h'] at hg; exact Or.inl ⟨hg, hq⟩
        · rw [← List.cons_append] at h'
          rw [h'] at hg; cases hg
      · rcases W.off q hq hb with h' | ⟨_, y, k, h1, h2, h3, h4, _, h6, h7⟩
        · rw [h'] at hg; exact Or.inl ⟨hg, hq⟩
        · rw [h4] at hg; cases hg
          exact Or.inr (Or.inr ⟨y, k, h1, h2, h3, rfl, h6, h7⟩)
  have hcopied : ∀ {y n0}, st.lower.get (m.dir ++ y) = some n0 → n0.isDir = true → ¬ Hides ({ n0 with dev := devAt st.upper [m.hash] } : Node) := by
    intro y n0 hg hd
    have hp := hs.plain _ n0 hg
    exact not_hides_dir hd hp.2.1 hp.2.2
  -- what hides afterwards did so before, or is at the path of the operation
  have hhid : ∀ q, q ≠ m.hash :: sub → HidesOpt (u.get q) → HidesOpt (st.upper.get q) := by
    rintro q hq ⟨n, hg, hh⟩
    rcases hcases q n hg with ⟨h', _⟩ | ⟨h', _⟩ | ⟨y, n0, rfl, _, _, rfl, h5, h6⟩
    · exact ⟨n, h', hh⟩
    · exact absurd h' hq
    · exact absurd hh (hcopied h5 h6)
  -- if something is stored below the path, the mark at the path is the old one
  have hmark : ∀ y n, Below sub y → u.get (m.hash :: y) = some n → (HidesOpt (u.get (m.hash :: sub)) ↔ HidesOpt (st.upper.get (m.hash :: sub))) := by
    intro y n hb hg
    have hold : st.upper.get (m.hash :: y) = some n := by
      rcases W.below y hb with h' | h'
      · rw [← h']; exact hg
      · rw [h'] at hg; cases hg
    generalize hwt : a.what = wt at S hgone
    cases S with
    | put _ _ _ _ hnone => rw [hnone y hb] at hold; cases hold
    | mkdir _ _ hnone => rw [hnone y hb] at hold; cases hold
    | whiteout => rw [hgone rfl y hb] at hg; cases hg
    | gone => rw [hgone rfl y hb] at hg; cases hg
    | @attr uid gid perm n1 n0 hk hv hd hop hdv =>
      have hw1 := (ho n1 rfl).2
      obtain ⟨_, hw0⟩ := view_overlay hs ht hv
      have hk0 : n0.kind = .dir := by simpa [Node.isDir] using hd
      have hd1 : n1.isDir = true := by simp [Node.isDir, hk]
      have e1 : HidesOpt (u.get (m.hash :: sub)) ↔ n0.opq = true := by
        rw [W.at_]
        constructor
        · rintro ⟨k, hk, hh⟩
          cases hk
          by_contra hc
          exact not_hides_dir hd1 (by rw [hop]; simpa using hc) hw1 hh
        · intro h; exact ⟨_, rfl, Or.inr (Or.inl (hop.trans h))⟩
      rw [e1]
      cases hg0 : st.upper.get (m.hash :: sub) with
      | none =>
        have := hs.plain _ n0 (view_host hs ht hg0 hv)
        rw [this.2.1]
        exact ⟨(fun h => by cases h), (fun ⟨k, hk, _⟩ => by cases hk)⟩
      | some k =>
        have hk : k = n0 := by
          cases hwk : isWhiteout k with
          | true => rw [((hs.view ht sub).1 k hg0).1 hwk] at hv; cases hv
          | false => rw [((hs.view ht sub).1 k hg0).2 hwk] at hv; exact Option.some.inj hv
        subst hk
        constructor
        · intro h; exact ⟨_, rfl, Or.inr (Or.inl h)⟩
        · rintro ⟨j, hj, hh⟩
          cases hj
          by_contra hc
          exact not_hides_dir hd (by simpa using hc) hw0 hh
  -- the mark set by an operation
  have hnew : ∀ n, o = some n → (isWhiteout n = true ∨ n.opq = true) → (∀ q, q ≠ [] → Below q sub → ¬ HidesOpt (st.upper.get (m.hash :: q))) ∧
      ∀ k, st.lower.get (m.dir ++ sub) = some k → R (m.dir ++ sub) := by
    intro n hn1 hmk
    have hmerged : merged st m.hash m.dir sub.dropLast = true → ∀ q, q ≠ [] → Below q sub → ¬ HidesOpt (st.upper.get (m.hash :: q)) := by
      intro hmg q hq0 hq hh
      exact merged_clear hs ht hmg (hiddenAt_iff.2 ⟨q, hq0, prefix_dropLast_of_below hq, hh⟩)
    generalize hwt : a.what = wt at S hgone
    cases S with
    | @put k uid gid perm n1 hk hkd hop =>
      cases hn1
      exfalso
      rcases hmk with hmk | hmk
      · obtain ⟨_, hk2⟩ := hP k uid gid perm hwt
        unfold isWhiteout at hmk
        rw [(ho _ rfl).2, hk] at hmk
        rcases hk2 with h2 | h2 | h2
        · cases k <;> simp_all [ftype]
        · cases k <;> simp_all [ftype]
        · exact hkd h2
      · rw [hop] at hmk; cases hmk
    | @mkdir uid gid perm opq n1 hk hv hnone hdv h1 h2 =>
      cases hn1
      rcases hmk with hmk | hmk
      · rw [not_whiteout_dir (by simp [Node.isDir, hk]) (ho _ rfl).2] at hmk; cases hmk
      · cases hg0 : st.upper.get (m.hash :: sub) with
        | some k0 =>
          have hwk : isWhiteout k0 = true := by
            cases hwk : isWhiteout k0 with
            | true => rfl
            | false => rw [((hs.view ht sub).1 k0 hg0).2 hwk] at hv; cases hv
          exact ⟨fun q hq0 hq => hn.clear m hmm sub k0 hsub0 hg0 (Or.inl hwk) q hq0 hq, fun k hk => hn.removed m hmm sub k0 k hsub0 hg0 (Or.inl hwk) hk⟩
        | none =>
          rcases h1 hmk with h1 | h1
          · have hc := hmerged h1
            refine ⟨hc, fun k hk => ?_⟩
            exfalso
            have hnh : ¬ HiddenAt st m.hash sub.reverse := by
              intro hh
              obtain ⟨q, a1, a2, a3⟩ := hiddenAt_iff.1 hh
              by_cases hqs : q = sub
              · subst hqs; rw [hg0] at a3; obtain ⟨j, hj, _⟩ := a3; cases hj
              · exact hc q a1 (below_iff.2 ⟨a2, hqs⟩) a3
            rw [((hs.view ht sub).2 hg0).2 hnh, hk] at hv
            cases hv
          · rw [hg0] at h1; cases h1
    | @attr uid gid perm n1 n0 hk hv hd hop hdv =>
      cases hn1
      rcases hmk with hmk | hmk
      · rw [not_whiteout_dir (by simp [Node.isDir, hk]) (ho _ rfl).2] at hmk; cases hmk
      · rw [hop] at hmk
        cases hg0 : st.upper.get (m.hash :: sub) with
        | none =>
          have := hs.plain _ n0 (view_host hs ht hg0 hv)
          rw [this.2.1] at hmk; cases hmk
        | some k0 =>
          have hk : k0 = n0 := by
            cases hwk : isWhiteout k0 with
            | true => rw [((hs.view ht sub).1 k0 hg0).1 hwk] at hv; cases hv
            | false => rw [((hs.view ht sub).1 k0 hg0).2 hwk] at hv; exact Option.some.inj hv
          subst hk
          exact ⟨fun q hq0 hq => hn.clear m hmm sub k0 hsub0 hg0 (Or.inr hmk) q hq0 hq, fun k hk => hn.removed m hmm sub k0 k hsub0 hg0 (Or.inr hmk) hk⟩
    | whiteout hk hop hdv hmg => exact ⟨hmerged hmg, fun _ _ => hR hwt⟩
    | gone => cases hn1
  -- the invariant for the mount
  have hclear : ∀ y n, y ≠ [] → u.get (m.hash :: y) = some n → (isWhiteout n = true ∨ n.opq = true) → ∀ q, q ≠ [] → Below q y → ¬ HidesOpt (u.get (m.hash :: q)) := by
    intro y n hy hg hmk q hq0 hq hh
    rcases hcases _ n hg with ⟨h', hys⟩ | ⟨h', h2⟩ | ⟨y', n0, h1, _, _, rfl, h5, h6⟩
    · have h2 := hn.clear m hmm y n hy h' hmk q hq0 hq
      by_cases hqs : q = sub
      · subst hqs
        exact h2 ((hmark y n hq hg).1 hh)
      · exact h2 (hhid _ (fun e => hqs (List.cons.inj e).2) hh)
    · have : y = sub := (List.cons.inj h').2
      subst this
      exact (hnew n h2 hmk).1 q hq0 hq (hhid _ (fun e => hq.ne (List.cons.inj e).2) hh)
    · cases h1
      exact hcopied h5 h6 (hmk.elim Or.inl (fun x => Or.inr (Or.inl x)))
  have hremoved : ∀ y n k, y ≠ [] → u.get (m.hash :: y) = some n → (isWhiteout n = true ∨ n.opq = true) → st.lower.get (m.dir ++ y) = some k → R (m.dir ++ y) := by
    intro y n k hy hg hmk hk
    rcases hcases _ n hg with ⟨h', hys⟩ | ⟨h', h2⟩ | ⟨y', n0, h1, _, _, rfl, h5, h6⟩
    · exact hn.removed m hmm y n k hy h' hmk hk
    · have : y = sub := (List.cons.inj h').2
      subst this
      exact (hnew n h2 hmk).2 k hk
    · cases h1
      exact absurd (hmk.elim Or.inl (fun x => Or.inr (Or.inl x))) (hcopied h5 h6)
  have hfiles : ∀ y n, y ≠ [] → u.get (m.hash :: y) = some n → isWhiteout n = false → n.isDir = false → P (m.dir ++ y) ∧ (Spec.ftype n.kind = .file ∨ Spec.ftype n.kind = .symlink) := by
    intro y n hy hg hw hd
    rcases hcases _ n hg with ⟨h', hys⟩ | ⟨h', h2⟩ | ⟨y', n0, h1, _, _, rfl, h5, h6⟩
    · exact hn.files m hmm y n hy h' hw hd
    · have : y = sub := (List.cons.inj h').2
      subst this
      generalize hwt : a.what = wt at S hgone
      cases S with
      | @put k uid gid perm n1 hk hkd hop =>
        cases h2
        obtain ⟨h3, h4⟩ := hP k uid gid perm hwt
        refine ⟨h3, ?_⟩
        rw [hk]
        rcases h4 with h4 | h4 | h4
        · exact Or.inl h4
        · exact Or.inr h4
        · exact absurd h4 hkd
      | mkdir hk => cases h2; rw [show n.isDir = true by simp [Node.isDir, hk]] at hd; cases hd
      | attr hk => cases h2; rw [show n.isDir = true by simp [Node.isDir, hk]] at hd; cases hd
      | whiteout hk => cases h2; unfold isWhiteout at hw; simp [hk] at hw
      | gone => cases h2
    · cases h1
      rw [show ({ n0 with dev := devAt st.upper [m.hash] } : Node).isDir = true from h6] at hd; cases hd
  have hdirs : ∀ y n k, y ≠ [] → u.get (m.hash :: y) = some n → n.isDir = true → st.lower.get (m.dir ++ y) = some k → k.isDir = false →
      n.opq = true ∨ ∃ q, q ≠ [] ∧ Below q y ∧ HidesOpt (u.get (m.hash :: q)) := by
    intro y n k hy hg hd hk hkd
    have hkeep : (∃ q, q ≠ [] ∧ Below q y ∧ HidesOpt (st.upper.get (m.hash :: q))) → ∃ q, q ≠ [] ∧ Below q y ∧ HidesOpt (u.get (m.hash :: q)) := by
      rintro ⟨q, q0, hq, hh⟩
      refine ⟨q, q0, hq, ?_⟩
      by_cases hqs : q = sub
      · subst hqs; exact (hmark y n hq hg).2 hh
      · obtain ⟨j, hj, hhj⟩ := id hh
        obtain ⟨i, hi, _⟩ := FS.isDirAt_iff.1 (W.wf.ancestor hg (below_cons hq))
        rcases hcases _ i hi with ⟨h', _⟩ | ⟨h', _⟩ | ⟨y', n0, h1, _, h3, _, h5, h6⟩
        · rw [hi, ← h']; exact hh
        · exact absurd (List.cons.inj h').2 hqs
        · cases h1
          -- it was stored before, so it was not copied
          rcases W.off (m.hash :: q) (fun e => hqs (List.cons.inj e).2) (fun hc => (below_cons h3).not_prefix hc.prefix) with h' | ⟨h0, _⟩
          · rw [h']; exact hh
          · rw [h0] at hj; cases hj
    rcases hcases _ n hg with ⟨h', hys⟩ | ⟨h', h2⟩ | ⟨y', n0, h1, _, _, rfl, h5, h6⟩
    · rcases hn.dirs m hmm y n k hy h' hd hk hkd with h3 | h3
      · exact Or.inl h3
      · exact Or.inr (hkeep h3)
    · have : y = sub := (List.cons.inj h').2
      subst this
      generalize hwt : a.what = wt at S hgone
      cases S with
      | put hk2 hkd2 => cases h2; simp [Node.isDir, hk2, hkd2] at hd
      | @mkdir uid gid perm opq n1 hk2 hv hnone hdv h3 h4 =>
        cases h2
        cases hg0 : st.upper.get (m.hash :: y) with
        | some k0 => left; exact h4 (by rw [hg0]; rfl)
        | none =>
          right
          have hH : HiddenAt st m.hash y.reverse := by
            by_contra hnh
            rw [((hs.view ht y).2 hg0).2 hnh, hk] at hv
            cases hv
          obtain ⟨q, a1, a2, a3⟩ := hiddenAt_iff.1 hH
          have hqs : q ≠ y := by rintro rfl; rw [hg0] at a3; obtain ⟨j, hj, _⟩ := a3; cases hj
          exact hkeep ⟨q, a1, below_iff.2 ⟨a2, hqs⟩, a3⟩
      | @attr uid gid perm n1 n0 hk2 hv hd2 hop hdv =>
        cases h2
        cases hg0 : st.upper.get (m.hash :: y) with
        | none =>
          have := view_host hs ht hg0 hv
          rw [hk] at this; cases this
          rw [hkd] at hd2; cases hd2
        | some k0 =>
          have hk' : k0 = n0 := by
            cases hwk : isWhiteout k0 with
            | true => rw [((hs.view ht y).1 k0 hg0).1 hwk] at hv; cases hv
            | false => rw [((hs.view ht y).1 k0 hg0).2 hwk] at hv; exact Option.some.inj hv
          subst hk'
          rcases hn.dirs m hmm y k0 k hy hg0 hd2 hk hkd with h3 | h3
          · left; rw [hop]; exact h3
          · exact Or.inr (hkeep h3)
      | whiteout hk2 => cases h2; simp [Node.isDir, hk2] at hd
      | gone => cases h2
    · cases h1
      rw [h5] at hk; cases hk
      rw [h6] at hkd; cases hkd
  have hother : ∀ m' ∈ mounts, m' ≠ m → ∀ y, u.get (m'.hash :: y) = st.upper.get (m'.hash :: y) := by
    intro m' hm' hne y
    have hq : ∀ z, m'.hash :: y ≠ m.hash :: z := fun z e => hne (hhash m' hm' (List.cons.inj e).1)
    rcases W.off (m'.hash :: y) (hq _) (fun hb => by obtain ⟨w, _, e⟩ := hb; exact hq _ (by rw [e]; rfl)) with h' | ⟨_, z, _, h1, _⟩
    · exact h'
    · exact absurd h1 (hq z)
  refine ⟨fun m' hm' y n hy hg hmk q hq0 hq => ?_, fun m' hm' y n k hy hg hmk hk => ?_, fun m' hm' y n hy hg hw hd => ?_, fun m' hm' y n k hy hg hd hk hkd => ?_, fun q n hg => ?_⟩
  · by_cases hmm' : m' = m
    · subst hmm'; exact hclear y n hy hg hmk q hq0 hq
    · simp only at hg ⊢
      rw [hother m' hm' hmm'] at hg ⊢
      exact hn.clear m' hm' y n hy hg hmk q hq0 hq
  · by_cases hmm' : m' = m
    · subst hmm'; exact hremoved y n k hy hg hmk hk
    · simp only at hg
      rw [hother m' hm' hmm'] at hg
      exact hn.removed m' hm' y n k hy hg hmk hk
  · by_cases hmm' : m' = m
    · subst hmm'; exact hfiles y n hy hg hw hd
    · simp only at hg
      rw [hother m' hm' hmm'] at hg
      exact hn.files m' hm' y n hy hg hw hd
  · by_cases hmm' : m' = m
    · subst hmm'; exact hdirs y n k hy hg hd hk hkd
    · simp only at hg
      rw [hother m' hm' hmm'] at hg
      rcases hn.dirs m' hm' y n k hy hg hd hk hkd with h3 | ⟨q, q0, hq, hh⟩
      · exact Or.inl h3
      · refine Or.inr ⟨q, q0, hq, ?_⟩
        simp only
        rw [hother m' hm' hmm']; exact hh
  · rcases hcases q n hg with ⟨h', _⟩ | ⟨_, h2⟩ | ⟨y', n0, _, _, _, rfl, _, _⟩
    · exact hn.dev q n h'
    · rw [← htop]
      generalize a.what = wt at S hgone
      cases S with
      | put _ _ _ hdv => cases h2; exact hdv
      | mkdir _ _ _ hdv => cases h2; exact hdv
      | attr _ _ _ _ hdv => cases h2; exact hdv
      | whiteout _ _ hdv => cases h2; exact hdv
      | gone => cases h2
    · exact htop

theorem Neat.run (hm : MountsOk mounts) : ∀ (acts : List Act) {st : State} {fs : FS}, Hist mounts T host st fs → Neat mounts P R dev st →
    (∀ a ∈ acts, ActOk mounts a ∧ T a.path ∧ (∀ k uid gid perm, a.what = .put k uid gid perm → P a.path ∧ (Spec.ftype k = .file ∨ Spec.ftype k = .symlink ∨ k = .dir)) ∧ (a.what = .remove → R a.path)) →
    Neat mounts P R dev (runIn mounts st acts)
  | [], _, _, _, hn, _ => hn
  | a :: acts, st, fs, h, hn, ha => by
    obtain ⟨h1, h2, h3, h4⟩ := ha a (by simp)
    have := Neat.run hm acts (h.step hm h1 h2) (hn.step hm h h1 h3 h4) (fun b hb => ha b (by simp [hb]))
    simpa [runIn] using this

end

end SB
