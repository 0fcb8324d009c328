import Verif.Lib.HistoryLemmas

/-! One operation in a sandbox changes what is seen at one path (proof machinery). -/

namespace SB
open Spec

theorem topOk_written {st : State} {m : Name} {mp sub : Path} (ht : TopOk st m mp) (hsub : sub ≠ []) {o : Option Node} {u : FS} (h : Written st m mp sub o u) :
    TopOk { st with upper := u } m mp := ⟨ht.1, by rw [FS.isDirAt_congr (gs := st.upper) (h.top hsub)]; exact ht.2⟩

theorem none_of_not_dir {st : State} (hs : Regular st) {m : Name} {mp : Path} (ht : TopOk st m mp) {sub y : Path} (hb : Below sub y) (h : dirSeen (Spec.view st m mp sub) = false) :
    Spec.view st m mp y = none := by
  cases hv : Spec.view st m mp y with
  | none => rfl
  | some n => rw [view_above hs ht hv hb] at h; cases h

theorem nothing_stored {st : State} (hs : Regular st) {m : Name} {mp : Path} (ht : TopOk st m mp) {sub y : Path} (hb : Below sub y) (h : dirSeen (Spec.view st m mp sub) = false) :
    st.upper.get (m :: y) = none := by
  cases hv : st.upper.get (m :: y) with
  | none => rfl
  | some n => rw [stored_below hs ht hb hv] at h; cases h

theorem hidden_kept {st : State} {m : Name} {mp sub : Path} {o : Option Node} {u : FS} (h : Written st m mp sub o u) {q : Path} (hb : Below q sub) (hh : HidesOpt (st.upper.get (m :: q))) :
    HidesOpt (u.get (m :: q)) := by
  rcases h.off (m :: q) (fun e => hb.ne (List.cons.inj e).2) (fun hc => (below_cons hb).not_prefix hc.prefix) with h' | ⟨h0, _⟩
  · rw [h']; exact hh
  · rw [h0] at hh
    obtain ⟨n, hn, _⟩ := hh
    cases hn

theorem view_overlay {st : State} (hs : Regular st) {m : Name} {mp : Path} (ht : TopOk st m mp) {y : Path} {n : Node} (h : Spec.view st m mp y = some n) : n.redirect = none ∧ n.whiteout = false := by
  obtain ⟨v1, _⟩ := hs.view ht y
  cases hg : st.upper.get (m :: y) with
  | none =>
    have := hs.plain _ n (view_host hs ht hg h)
    exact ⟨this.1, this.2.2⟩
  | some k =>
    cases hw : isWhiteout k with
    | true => rw [(v1 k hg).1 hw] at h; cases h
    | false =>
      rw [(v1 k hg).2 hw] at h
      cases h
      exact ⟨hs.redirect _ _ hg, hs.whiteout _ _ hg⟩

theorem not_whiteout_dir {n : Node} (hd : n.isDir = true) (hw : n.whiteout = false) : isWhiteout n = false := by
  unfold Node.isDir at hd
  simp only [beq_iff_eq] at hd
  unfold isWhiteout; rw [hd, hw]; simp

/-- The step. -/
theorem act_update {st : State} (hs : Regular st) {m : Name} {mp sub : Path} (ht : TopOk st m mp) (hsub : sub ≠ []) (hN : ∀ y, y <+: sub → NormalPath (m :: y))
    (hNv : ∀ y, (∃ n, Spec.view st m mp y = some n) → NormalPath (m :: y)) (w : What) (hw : ∀ k uid gid perm, w = .put k uid gid perm → k ≠ .chr 0) :
    (∀ v, actAttrs (attrsOf (Spec.view st m mp sub)) (dirSeen (Spec.view st m mp sub.dropLast)) (childSeen st m mp sub) w = some v →
      Updated st { st with upper := actUpper st m mp sub w } m mp sub v) ∧
    (actAttrs (attrsOf (Spec.view st m mp sub)) (dirSeen (Spec.view st m mp sub.dropLast)) (childSeen st m mp sub) w = none → actUpper st m mp sub w = st.upper) := by
  cases hpar : dirSeen (Spec.view st m mp sub.dropLast) with
  | false =>
    have hnone : actAttrs (attrsOf (Spec.view st m mp sub)) false (childSeen st m mp sub) w = none := by
      cases w <;> simp [actAttrs]
    rw [hnone]
    refine ⟨(fun v h => by cases h), fun _ => ?_⟩
    unfold actUpper
    simp [hpar]
  | true =>
    have hdirA : ∀ o : Option Node, (attrsOf o).any (fun a => a.1 == .dir) = dirSeen o := by
      intro o; cases o <;> simp [attrsOf, dirSeen, Node.isDir]
    cases w with
    | put k uid gid perm =>
      have hk := hw k uid gid perm rfl
      simp only [actAttrs, hdirA, actUpper, hpar, Bool.not_true, Bool.false_or, Bool.false_eq_true, if_false]
      by_cases hc : (dirSeen (Spec.view st m mp sub) || k == .dir) = true
      · rw [if_pos hc, if_pos hc]
        exact ⟨(fun v h => by cases h), fun _ => rfl⟩
      · rw [if_neg hc, if_neg hc]
        refine ⟨fun v hv => ?_, (fun h => by cases h)⟩
        cases hv
        have hnd : dirSeen (Spec.view st m mp sub) = false := by simp at hc; exact hc.1
        have hkd : k ≠ .dir := by simp at hc; exact hc.2
        obtain ⟨W, _⟩ := written_set hs ht hsub hN hNv hpar (n := { fileNode k uid gid perm with dev := devAt st.upper [m] }) (fun _ y hb => nothing_stored hs ht hb hnd)
        have ho : ∀ n, some ({ fileNode k uid gid perm with dev := devAt st.upper [m] } : Node) = some n → n.redirect = none ∧ n.whiteout = false := fun n h => by cases h; exact ⟨rfl, rfl⟩
        have hs' := W.regular hs ho
        have ht' := topOk_written ht hsub W
        have hnw : isWhiteout { fileNode k uid gid perm with dev := devAt st.upper [m] } = false := by
          unfold isWhiteout fileNode; simp [hk]
        have hv' := ((hs'.view ht' sub).1 _ W.at_).2 hnw
        refine W.updated hs ht hsub ho (by rw [hv']; rfl) (fun y hb => ?_) (fun n h => by cases h; exact Or.inr (Or.inr rfl)) (fun n h hd _ => ?_)
        · rw [none_of_not_dir hs ht hb hnd]
          rw [none_of_not_dir hs' ht' hb (by rw [hv']; simp [dirSeen, Node.isDir, fileNode, hkd])]
        · rw [h] at hnd; simp only [dirSeen] at hnd; rw [hd] at hnd; cases hnd
    | mkdir uid gid perm opq =>
      simp only [actAttrs, actUpper, hpar, Bool.not_true, Bool.false_or, Bool.false_eq_true, if_false]
      have hsome : (attrsOf (Spec.view st m mp sub)).isSome = (Spec.view st m mp sub).isSome := by unfold attrsOf; simp
      rw [hsome]
      by_cases hc : (Spec.view st m mp sub).isSome = true
      · rw [if_pos hc, if_pos hc]
        exact ⟨(fun v h => by cases h), fun _ => rfl⟩
      · rw [if_neg hc, if_neg hc]
        refine ⟨fun v hv => ?_, (fun h => by cases h)⟩
        cases hv
        have hvn : Spec.view st m mp sub = none := by simpa using hc
        have hnd : dirSeen (Spec.view st m mp sub) = false := by rw [hvn]; rfl
        obtain ⟨W, _⟩ := written_set hs ht hsub hN hNv hpar (n := { fileNode .dir uid gid perm with opq := (opq && merged st m mp sub.dropLast) || (st.upper.get (m :: sub)).isSome, dev := devAt st.upper [m] }) (fun h => by simp [Node.isDir, fileNode] at h)
        have ho : ∀ n, some ({ fileNode .dir uid gid perm with opq := (opq && merged st m mp sub.dropLast) || (st.upper.get (m :: sub)).isSome, dev := devAt st.upper [m] } : Node) = some n → n.redirect = none ∧ n.whiteout = false :=
          fun n h => by cases h; exact ⟨rfl, rfl⟩
        have hs' := W.regular hs ho
        have ht' := topOk_written ht hsub W
        have hv' := ((hs'.view ht' sub).1 _ W.at_).2 rfl
        refine W.updated hs ht hsub ho (by rw [hv']; rfl) (fun y hb => ?_) (fun n h => by cases h; exact Or.inl rfl) (fun n h _ _ => by rw [hvn] at h; cases h)
        rw [none_of_not_dir hs ht hb hnd]
        have hun : FS.get ((copyUp st m mp sub.dropLast.reverse).set (m :: sub) { fileNode .dir uid gid perm with opq := (opq && merged st m mp sub.dropLast) || (st.upper.get (m :: sub)).isSome, dev := devAt st.upper [m] }) (m :: y) = none := by
          rcases W.below y hb with h | h
          · rw [h]; exact nothing_stored hs ht hb hnd
          · exact h
        by_contra hne
        cases hvy : Spec.view { st with upper := (copyUp st m mp sub.dropLast.reverse).set (m :: sub) { fileNode .dir uid gid perm with opq := (opq && merged st m mp sub.dropLast) || (st.upper.get (m :: sub)).isSome, dev := devAt st.upper [m] } } m mp y with
        | none => exact hne (by rw [hvy])
        | some k =>
          have hlow := view_host hs' ht' hun hvy
          have hnh : ¬ HiddenAt { st with upper := (copyUp st m mp sub.dropLast.reverse).set (m :: sub) { fileNode .dir uid gid perm with opq := (opq && merged st m mp sub.dropLast) || (st.upper.get (m :: sub)).isSome, dev := devAt st.upper [m] } } m y.reverse :=
            fun h => by rw [((hs'.view ht' y).2 hun).1 h] at hvy; cases hvy
          have hnh' : ∀ q, q ≠ [] → q <+: y → ¬ HidesOpt (FS.get ((copyUp st m mp sub.dropLast.reverse).set (m :: sub) { fileNode .dir uid gid perm with opq := (opq && merged st m mp sub.dropLast) || (st.upper.get (m :: sub)).isSome, dev := devAt st.upper [m] }) (m :: q)) :=
            fun q h1 h2 h3 => hnh (hiddenAt_iff.2 ⟨q, h1, h2, h3⟩)
          have hnot := hnh' sub hsub hb.prefix
          rw [W.at_] at hnot
          have hopq : ((opq && merged st m mp sub.dropLast) || (st.upper.get (m :: sub)).isSome) = false := by
            by_contra hx
            exact hnot ⟨_, rfl, Or.inr (Or.inl ((Bool.not_eq_false _).mp hx))⟩
          have hun0 : st.upper.get (m :: sub) = none := by simp at hopq; exact hopq.2
          obtain ⟨d, hd1, _⟩ := FS.isDirAt_iff.1 (hs.host.ancestor hlow (q := mp ++ sub) (by
            obtain ⟨w, a, b⟩ := hb
            exact ⟨w, a, by rw [List.append_assoc, ← b]⟩))
          by_cases hH : HiddenAt st m sub.reverse
          · obtain ⟨q, a, b, c⟩ := hiddenAt_iff.1 hH
            have hqs : q ≠ sub := by
              rintro rfl
              obtain ⟨n, hn, _⟩ := c
              rw [hun0] at hn; cases hn
            exact hnh' q a (b.trans hb.prefix) (hidden_kept W (below_iff.2 ⟨b, hqs⟩) c)
          · rw [((hs.view ht sub).2 hun0).2 hH, hd1] at hvn; cases hvn
    | attr uid gid perm =>
      simp only [actAttrs, actUpper, hpar, Bool.not_true, Bool.false_eq_true, if_false]
      cases hv : Spec.view st m mp sub with
      | none => exact ⟨(fun v h => by simp [attrsOf] at h), fun _ => rfl⟩
      | some n =>
        simp only [attrsOf, Option.map_some]
        by_cases hd : n.isDir = true
        · have hd2 : (n.kind == .dir) = true := hd
          rw [if_pos hd2, if_pos hd]
          refine ⟨fun v hv => ?_, (fun h => by cases h)⟩
          cases hv
          obtain ⟨p1, p2⟩ := view_overlay hs ht hv
          have hd' : ({ n with uid := uid, gid := gid, perm := perm, dev := devAt st.upper [m] } : Node).isDir = true := hd
          obtain ⟨W, hbel⟩ := written_set hs ht hsub hN hNv hpar (n := { n with uid := uid, gid := gid, perm := perm, dev := devAt st.upper [m] }) (fun h => by rw [hd'] at h; cases h)
          have ho : ∀ k, some ({ n with uid := uid, gid := gid, perm := perm, dev := devAt st.upper [m] } : Node) = some k → k.redirect = none ∧ k.whiteout = false := fun k h => by cases h; exact ⟨p1, p2⟩
          have hs' := W.regular hs ho
          have ht' := topOk_written ht hsub W
          have hv' := ((hs'.view ht' sub).1 _ W.at_).2 (not_whiteout_dir hd' p2)
          have hkd : n.kind = .dir := by simpa using hd2
          refine W.updated hs ht hsub ho (by rw [hv']; simp [attrsOf, hkd]) (fun y hb => ?_) (fun k h => by cases h; exact Or.inl hkd) (fun k h hk _ => ⟨_, hv', hd', by rw [hv] at h; cases h; rfl⟩)
          have hhide : HidesOpt (some ({ n with uid := uid, gid := gid, perm := perm, dev := devAt st.upper [m] } : Node)) ↔ n.opq = true := by
            constructor
            · rintro ⟨k, hk, hh⟩
              cases hk
              by_contra hc
              exact not_hides_dir hd' (by simpa using hc) p2 hh
            · intro h; exact ⟨_, rfl, Or.inr (Or.inl h)⟩
          have hhide0 : HidesOpt (st.upper.get (m :: sub)) ↔ n.opq = true := by
            cases hg : st.upper.get (m :: sub) with
            | none =>
              have := hs.plain _ n (view_host hs ht hg hv)
              rw [this.2.1]
              exact ⟨(fun ⟨k, hk, _⟩ => by cases hk), (fun h => by cases h)⟩
            | some k =>
              have hk : k = n := by
                cases hwk : isWhiteout k with
                | true => rw [((hs.view ht sub).1 k hg).1 hwk] at hv; cases hv
                | false => rw [((hs.view ht sub).1 k hg).2 hwk] at hv; exact Option.some.inj hv
              subst hk
              constructor
              · rintro ⟨j, hj, hh⟩
                cases hj
                by_contra hc
                exact not_hides_dir hd (by simpa using hc) p2 hh
              · intro h; exact ⟨_, rfl, Or.inr (Or.inl h)⟩
          refine view_same hs hs' rfl ht ht' (fun q hq0 hq => ?_) (Or.inl (hbel y hb))
          show HidesOpt (FS.get ((copyUp st m mp sub.dropLast.reverse).set (m :: sub) { n with uid := uid, gid := gid, perm := perm, dev := devAt st.upper [m] }) (m :: q)) ↔ _
          by_cases hqs : q = sub
          · subst hqs; rw [W.at_, hhide, hhide0]
          · rcases prefix_total hq hb.prefix with h | h
            · have hbq : Below q sub := below_iff.2 ⟨h, hqs⟩
              rcases W.off (m :: q) (fun e => hqs (List.cons.inj e).2) (fun hc => (below_cons hbq).not_prefix hc.prefix) with h' | ⟨h0, y', k, h1, _, _, h4, _, h6, h7⟩
              · rw [h']
              · rw [h0, h4]
                have hp := hs.plain _ k h6
                exact ⟨(fun ⟨j, hj, hh⟩ => by cases hj; exact absurd hh (not_hides_dir h7 hp.2.1 hp.2.2)), (fun ⟨j, hj, _⟩ => by cases hj)⟩
            · rw [hbel q (below_iff.2 ⟨h, fun e => hqs e.symm⟩)]
        · have hd2 : ¬ (n.kind == .dir) = true := hd
          rw [if_neg hd2, if_neg hd]
          exact ⟨(fun v h => by cases h), fun _ => rfl⟩
    | remove =>
      simp only [actAttrs, actUpper, hpar, Bool.not_true, Bool.false_eq_true, if_false]
      cases hv : Spec.view st m mp sub with
      | none => exact ⟨(fun v h => by simp [attrsOf] at h), fun _ => rfl⟩
      | some n =>
        simp only [attrsOf, Option.map_some]
        have hdn : (n.kind == .dir) = n.isDir := rfl
        rw [hdn]
        by_cases hc : (n.isDir && childSeen st m mp sub) = true
        · rw [if_pos hc, if_pos hc]
          exact ⟨(fun v h => by cases h), fun _ => rfl⟩
        · rw [if_neg hc, if_neg hc]
          refine ⟨fun v hv => ?_, (fun h => by cases h)⟩
          cases hv
          have hbefore : ∀ y, Below sub y → Spec.view st m mp y = none := by
            intro y hb
            cases hvy : Spec.view st m mp y with
            | none => rfl
            | some k =>
              have h1 := view_above hs ht hvy hb
              rw [hv] at h1
              have h2 : childSeen st m mp sub = true := (childSeen_iff hs ht).2 ⟨y, hb, by rw [hvy]; rfl⟩
              rw [show n.isDir = true from h1, h2] at hc
              exact absurd rfl hc
          cases hlp : lowerPositive st m mp sub with
          | true =>
            simp only [if_true]
            have W := written_prune hs ht hsub hN hNv hpar (o := some { kind := .chr 0, dev := devAt st.upper [m] }) (fun k h => by cases h; rfl) _ rfl
            have ho : ∀ k, some ({ kind := .chr 0, dev := devAt st.upper [m] } : Node) = some k → k.redirect = none ∧ k.whiteout = false := fun k h => by cases h; exact ⟨rfl, rfl⟩
            have hs' := W.regular hs ho
            have ht' := topOk_written ht hsub W
            have hv' := ((hs'.view ht' sub).1 _ W.at_).1 rfl
            refine W.updated hs ht hsub ho (by rw [hv']; rfl) (fun y hb => ?_) (fun k h => by cases h; exact Or.inr (Or.inl rfl)) (fun k _ _ h => absurd rfl h)
            rw [hbefore y hb]
            rw [none_of_not_dir hs' ht' hb (by rw [hv']; rfl)]
          | false =>
            simp only [Bool.false_eq_true, if_false]
            have W := written_prune hs ht hsub hN hNv hpar (o := none) (fun k h => by cases h) _ rfl
            have ho : ∀ k, (none : Option Node) = some k → k.redirect = none ∧ k.whiteout = false := fun k h => by cases h
            have hs' := W.regular hs ho
            have ht' := topOk_written ht hsub W
            have hv' : Spec.view { st with upper := (copyUp st m mp sub.dropLast.reverse).filter (fun e => !(m :: sub).isPrefixOf e.1) } m mp sub = none := by
              obtain ⟨w1, w2⟩ := (hs'.view ht' sub).2 W.at_
              by_cases hH' : HiddenAt { st with upper := (copyUp st m mp sub.dropLast.reverse).filter (fun e => !(m :: sub).isPrefixOf e.1) } m sub.reverse
              · exact w1 hH'
              · rw [w2 hH']
                have hnh : ¬ HiddenAt st m sub.dropLast.reverse := by
                  intro h
                  obtain ⟨q, a, b, c⟩ := hiddenAt_iff.1 h
                  have hbq : Below q sub := below_of_prefix_below b (dropLast_below hsub)
                  exact hH' (hiddenAt_iff.2 ⟨q, a, hbq.prefix, hidden_kept W hbq c⟩)
                have hl : sub.dropLast ++ [sub.getLast hsub] = sub := List.dropLast_append_getLast hsub
                have hdrop : sub.drop (sub.length - 1) = [sub.getLast hsub] := List.drop_length_sub_one hsub
                have hcl := lookup_closed hs.host hs.upper ht.1 ht.2 hs.redirect (fun q n hg hw => by rw [hs.whiteout q n hg] at hw; cases hw) sub.dropLast.reverse
                rw [List.reverse_reverse] at hcl
                unfold lowerPositive Spec.lookup at hlp
                have hmps : mp ++ sub = mp ++ sub.dropLast ++ [sub.getLast hsub] := by rw [List.append_assoc, hl]
                show st.lower.get (mp ++ sub) = none
                have hfinal : ∀ L, (∀ l, L = some l → l = mp ++ sub.dropLast) → (L = none → st.lower.isDirAt (mp ++ sub.dropLast) = false) →
                    (match L with | none => false | some l => (st.lower.get (l ++ sub.drop (sub.length - 1))).isSome) = false → st.lower.get (mp ++ sub) = none := by
                  intro L h1 h2 h3
                  cases L with
                  | none =>
                    have := h2 rfl
                    cases hg : st.lower.get (mp ++ sub) with
                    | none => rfl
                    | some k =>
                      rw [hs.host.ancestor hg (q := mp ++ sub.dropLast) ⟨[sub.getLast hsub], by simp, hmps⟩] at this
                      cases this
                  | some l =>
                    have := h1 l rfl
                    subst this
                    simp only [hdrop, ← hmps] at h3
                    simpa using h3
                cases hg : st.upper.get (m :: sub.dropLast) with
                | some d =>
                  obtain ⟨c1, c2⟩ := hcl.1 d hg
                  cases hwd : isWhiteout d with
                  | true =>
                    have : Spec.view st m mp sub.dropLast = none := ((hs.view ht _).1 d hg).1 hwd
                    rw [this] at hpar; cases hpar
                  | false =>
                    obtain ⟨L, hL, _, hL2⟩ := c2 hwd
                    rw [hL] at hlp
                    refine hfinal L (fun l hl' => ?_) (fun hn => ?_) hlp
                    · rw [hL2 hnh] at hl'; exact (presentDir_some hl').1
                    · rw [hL2 hnh] at hn; exact presentDir_none hn
                | none =>
                  have hL := (hcl.2 hg).2 hnh
                  cases hpr : present st.lower (mp ++ sub.dropLast) with
                  | none =>
                    have := present_of.1 hpr
                    exact hs.host.none_below this ⟨[sub.getLast hsub], by simp, hmps⟩
                  | some l =>
                    rw [hL, hpr] at hlp
                    refine hfinal (some l) (fun l' hl' => ?_) (fun h => by cases h) hlp
                    cases hl'
                    unfold present at hpr
                    split at hpr
                    · exact (Option.some.inj hpr).symm
                    · cases hpr
            refine W.updated hs ht hsub ho (by rw [hv']; rfl) (fun y hb => ?_) (fun k h => by cases h) (fun k _ _ h => absurd rfl h)
            rw [hbefore y hb]
            rw [none_of_not_dir hs' ht' hb (by rw [hv']; rfl)]

end SB
