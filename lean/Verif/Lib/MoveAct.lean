import Verif.Lib.MoveStep

/-! Operations at one path in a sandbox with renamed directories (proof machinery). -/

namespace SB
open Spec

theorem lowOf_stored {st : State} (hl : Lawful st) {m : Name} {mp : Path} (ht : TopOk st m mp) {y : Path} {x : Name} {n : Node} (hg : st.upper.get (m :: (y ++ [x])) = some n) :
    lowOf st m mp (y ++ [x]) = (lowOf st m mp y).bind (fun lo => (foundAt st.lower mp lo x (some n)).map (·.lower)) := by
  unfold lowOf
  rw [lookup_snoc hl ht, hg]
  cases Spec.lookup st m mp y <;> rfl

theorem lowOf_seen {st : State} (hl : Lawful st) {m : Name} {mp : Path} (ht : TopOk st m mp) {y : Path} {n : Node} (h : Spec.view st m mp y = some n) : ∃ lo, lowOf st m mp y = some lo := by
  have := view_isSome hl ht (y := y)
  rw [h] at this
  obtain ⟨f, hf⟩ := Option.isSome_iff_exists.1 this.symm
  exact ⟨f.lower, by unfold lowOf; rw [hf]; rfl⟩

theorem low_of_none {st : State} (hl : Lawful st) {m : Name} {mp : Path} (ht : TopOk st m mp) {y : Path} (h : Spec.view st m mp y = none) : lowOf st m mp y = none := by
  have := view_isSome hl ht (y := y)
  rw [h] at this
  unfold lowOf
  cases hf : Spec.lookup st m mp y with
  | none => rfl
  | some f => rw [hf] at this; cases this

/-- A stored file has no lower part. -/
theorem low_file {st : State} (hl : Lawful st) {m : Name} {mp : Path} (ht : TopOk st m mp) {y : Path} {n : Node} (hg : st.upper.get (m :: y) = some n) (hn : n.isDir = false) (l : Path) :
    lowOf st m mp y ≠ some (some l) := by
  intro h
  unfold lowOf at h
  cases hf : Spec.lookup st m mp y with
  | none => rw [hf] at h; cases h
  | some f =>
    rw [hf] at h
    have hfl : f.lower = some l := by simpa using h
    rcases List.eq_nil_or_concat y with rfl | ⟨z, x, rfl⟩
    · obtain ⟨t, t1, t2, _⟩ := lookup_nil hl ht
      rw [t1] at hg; cases hg
      rw [t2] at hn; cases hn
    · rw [List.concat_eq_append] at hf hg
      rw [lookup_snoc hl ht, hg] at hf
      cases hp : Spec.lookup st m mp z with
      | none => rw [hp] at hf; cases hf
      | some d =>
        rw [hp] at hf
        simp only [Option.bind_some, foundAt] at hf
        split at hf
        · cases hf
        · split at hf
          · cases hf; cases hfl
          · next hd => exact absurd (isDir_iff_ftype.2 (by simpa using hd)) (by rw [hn]; simp)

theorem act_updateM {st : State} (hl : Lawful st) {m : Name} {mp sub : Path} (ht : TopOk st m mp) (hsub : sub ≠ []) (hN : ∀ y, y <+: sub → NormalPath (m :: y))
    (hNv : ∀ y, (∃ n, Spec.view st m mp y = some n) → NormalPath (m :: y)) (w : What) (hw : ∀ k uid gid perm, w = .put k uid gid perm → k ≠ .chr 0) :
    (∀ v, actAttrs (attrsOf (Spec.view st m mp sub)) (dirSeen (Spec.view st m mp sub.dropLast)) (childSeen st m mp sub) w = some v →
      UpdatedM st { st with upper := actUpper st m mp sub w } m mp sub v) ∧
    (actAttrs (attrsOf (Spec.view st m mp sub)) (dirSeen (Spec.view st m mp sub.dropLast)) (childSeen st m mp sub) w = none → actUpper st m mp sub w = st.upper) := by
  obtain ⟨z, x, hzx⟩ : ∃ z x, sub = z ++ [x] := ⟨_, _, (List.dropLast_append_getLast hsub).symm⟩
  have hdl : sub.dropLast = z := by rw [hzx]; simp
  cases hpar : dirSeen (Spec.view st m mp sub.dropLast) with
  | false =>
    have hnone : actAttrs (attrsOf (Spec.view st m mp sub)) false (childSeen st m mp sub) w = none := by
      cases w <;> simp [actAttrs]
    rw [hnone]
    refine ⟨(fun v h => by cases h), fun _ => ?_⟩
    unfold actUpper
    simp [hpar]
  | true =>
    have hdirA : ∀ o : Option Node, (attrsOf o).any (fun a => a.1 == .dir) = dirSeen o := by
      intro o; cases o <;> simp [attrsOf, dirSeen, Node.isDir]
    obtain ⟨lo, hlo⟩ : ∃ lo, lowOf st m mp z = some lo := by
      rw [hdl] at hpar
      cases hv : Spec.view st m mp z with
      | none => rw [hv] at hpar; cases hpar
      | some k => exact lowOf_seen hl ht hv
    cases w with
    | put k uid gid perm =>
      have hk := hw k uid gid perm rfl
      simp only [actAttrs, hdirA, actUpper, hpar, Bool.not_true, Bool.false_or, Bool.false_eq_true, if_false]
      by_cases hc : (dirSeen (Spec.view st m mp sub) || k == .dir) = true
      · rw [if_pos hc, if_pos hc]
        exact ⟨(fun v h => by cases h), fun _ => rfl⟩
      · rw [if_neg hc, if_neg hc]
        refine ⟨fun v hv => ?_, (fun h => by cases h)⟩
        cases hv
        have hnd : dirSeen (Spec.view st m mp sub) = false := by simp at hc; exact hc.1
        have hkd : k ≠ .dir := by simp at hc; exact hc.2
        obtain ⟨W, hbel⟩ := writtenM_set hl ht hsub hN hNv hpar (n := { fileNode k uid gid perm with dev := devAt st.upper [m] }) (fun _ y hb => nothingM_stored hl ht hb hnd)
        have ho : ∀ n, some ({ fileNode k uid gid perm with dev := devAt st.upper [m] } : Node) = some n → n.whiteout = false := fun n h => by cases h; rfl
        have hl' := W.lawful hl ho
        have ht' := W.topOk ht hsub
        have hnw : isWhiteout { fileNode k uid gid perm with dev := devAt st.upper [m] } = false := by
          unfold isWhiteout fileNode; simp [hk]
        have hv' := viewM_stored hl' ht' W.at_
        rw [if_neg (by rw [hnw]; simp)] at hv'
        refine W.updated hl ht hsub ho (by rw [hv']; rfl) (fun y hb => ?_) (fun n h => by cases h; exact Or.inr (Or.inr rfl)) (fun n h hd _ => ?_) (fun y n rd hp hg hrd => ?_) (fun y l hp hl0 => ?_)
        · rw [noneM_below hl ht hb hnd]
          rw [noneM_below hl' ht' hb (by rw [hv']; simp [dirSeen, Node.isDir, fileNode, hkd])]
        · rw [h] at hnd; simp only [dirSeen] at hnd; rw [hd] at hnd; cases hnd
        · by_cases hy : y = sub
          · subst hy; rw [W.at_] at hg; cases hg; cases hrd
          · have hb : Below sub y := below_iff.2 ⟨hp, fun e => hy e.symm⟩
            rw [hbel y hb, nothingM_stored hl ht hb hnd] at hg; cases hg
        · by_cases hy : y = sub
          · subst hy
            exact absurd hl0 (low_file hl' ht' W.at_ (by simp [Node.isDir, fileNode, hkd]) l)
          · rw [low_of_none hl' ht' (noneM_below hl' ht' (below_iff.2 ⟨hp, fun e => hy e.symm⟩) (by rw [hv']; simp [dirSeen, Node.isDir, fileNode, hkd]))] at hl0; cases hl0
    | mkdir uid gid perm opq =>
      simp only [actAttrs, actUpper, hpar, Bool.not_true, Bool.false_or, Bool.false_eq_true, if_false]
      have hsome : (attrsOf (Spec.view st m mp sub)).isSome = (Spec.view st m mp sub).isSome := by unfold attrsOf; simp
      rw [hsome]
      by_cases hc : (Spec.view st m mp sub).isSome = true
      · rw [if_pos hc, if_pos hc]
        exact ⟨(fun v h => by cases h), fun _ => rfl⟩
      · rw [if_neg hc, if_neg hc]
        refine ⟨fun v hv => ?_, (fun h => by cases h)⟩
        cases hv
        have hvn : Spec.view st m mp sub = none := by simpa using hc
        have hnd : dirSeen (Spec.view st m mp sub) = false := by rw [hvn]; rfl
        generalize hnn : ({ fileNode .dir uid gid perm with opq := (opq && merged st m mp sub.dropLast) || (st.upper.get (m :: sub)).isSome, dev := devAt st.upper [m] } : Node) = nn
        have hdir : nn.isDir = true := by rw [← hnn]; rfl
        have hwh : nn.whiteout = false := by rw [← hnn]; rfl
        have hre : nn.redirect = none := by rw [← hnn]; rfl
        obtain ⟨W, hbel⟩ := writtenM_set hl ht hsub hN hNv hpar (n := nn) (fun h => by rw [hdir] at h; cases h)
        have ho : ∀ n, some nn = some n → n.whiteout = false := fun n h => by cases h; exact hwh
        have hl' := W.lawful hl ho
        have ht' := W.topOk ht hsub
        have hno : ∀ y, Below sub y → FS.get ((copyUp st m mp sub.dropLast.reverse).set (m :: sub) nn) (m :: y) = none := fun y hb => by
          rw [hbel y hb]; exact nothingM_stored hl ht hb hnd
        have hv' := viewM_stored hl' ht' W.at_
        rw [if_neg (by rw [not_whiteout_dir hdir hwh]; simp)] at hv'
        have hlow' : lowOf { st with upper := (copyUp st m mp sub.dropLast.reverse).set (m :: sub) nn } m mp sub = some none := by
          have e := W.low hl ht hsub ho (y := z) (fun h => by have := h.length_le; rw [hzx, List.length_append] at this; simp only [List.length_singleton] at this; omega)
          have hat := W.at_
          generalize FS.set (copyUp st m mp sub.dropLast.reverse) (m :: sub) nn = u at *
          rw [hlo] at e
          rw [hzx] at hat ⊢
          rw [lowOf_stored hl' ht' (n := nn) hat, e]
          unfold foundAt
          dsimp only [Option.bind_some]
          rw [not_whiteout_dir hdir hwh]
          simp only [Bool.false_eq_true, if_false, isDir_iff_ftype.1 hdir, ne_eq, not_true]
          by_cases hop : nn.opq = true
          · rw [if_pos hop]; rfl
          · rw [if_neg hop, hre]
            have hun : st.upper.get (m :: sub) = none := by
              rw [← hnn] at hop
              simp only [Bool.or_eq_true, not_or] at hop
              simpa using hop.2
            simp only [lowerName, Option.map_some]
            congr 1
            have hlk : Spec.lookup st m mp sub = none := by
              have := view_isSome hl ht (y := sub)
              rw [hvn] at this
              cases h : Spec.lookup st m mp sub with
              | none => rfl
              | some f => rw [h] at this; cases this
            rw [hzx, lookup_snoc hl ht] at hlk
            rw [hzx] at hun
            unfold lowOf at hlo
            cases hz : Spec.lookup st m mp z with
            | none => rw [hz] at hlo; cases hlo
            | some d =>
              rw [hz] at hlo hlk
              have hd : d.lower = lo := by simpa using hlo
              rw [hun, Option.bind_some] at hlk
              simp only [foundAt, hd, Option.map_eq_none_iff] at hlk
              cases lo with
              | none => rfl
              | some l =>
                simp only [Option.map_some, Option.bind_some] at hlk ⊢
                unfold presentDir
                rw [present_of.1 hlk]
        refine W.updated hl ht hsub ho (by rw [hv', ← hnn]; rfl) (fun y hb => ?_) (fun n h => by cases h; rw [← hnn]; exact Or.inl rfl) (fun n h _ _ => by rw [hvn] at h; cases h) (fun y n rd hp hg hrd => ?_) (fun y l hp hl0 => ?_)
        · rw [noneM_below hl ht hb hnd, W.none_below hl ht hsub ho hlow' hno hb]
        · by_cases hy : y = sub
          · subst hy; rw [W.at_] at hg; cases hg; rw [hre] at hrd; cases hrd
          · rw [hno y (below_iff.2 ⟨hp, fun e => hy e.symm⟩)] at hg; cases hg
        · by_cases hy : y = sub
          · subst hy; rw [hlow'] at hl0; cases hl0
          · rw [low_of_none hl' ht' (W.none_below hl ht hsub ho hlow' hno (below_iff.2 ⟨hp, fun e => hy e.symm⟩))] at hl0; cases hl0
    | attr uid gid perm =>
      simp only [actAttrs, actUpper, hpar, Bool.not_true, Bool.false_eq_true, if_false]
      cases hv : Spec.view st m mp sub with
      | none => exact ⟨(fun v h => by simp [attrsOf] at h), fun _ => rfl⟩
      | some n =>
        simp only [attrsOf, Option.map_some]
        by_cases hd : n.isDir = true
        · have hd2 : (n.kind == .dir) = true := hd
          rw [if_pos hd2, if_pos hd]
          refine ⟨fun v hv => ?_, (fun h => by cases h)⟩
          cases hv
          have hrel : StoredRel st m mp sub (st.upper.get (m :: sub)) (some { n with uid := uid, gid := gid, perm := perm, dev := devAt st.upper [m] }) ∧ n.whiteout = false ∧
              (∀ rd, n.redirect = some rd → st.upper.get (m :: sub) = some n) := by
            cases hg : st.upper.get (m :: sub) with
            | some k =>
              have := viewM_stored hl ht hg
              rw [hv] at this
              have hkn : k = n := by
                split at this
                · cases this
                · exact (Option.some.inj this).symm
              subst hkn
              exact ⟨Or.inr (Or.inl ⟨k, _, rfl, rfl, hd, hd, rfl, rfl, rfl⟩), hl.whiteout _ _ hg, fun _ _ => rfl⟩
            | none =>
              obtain ⟨l, h1, h2⟩ := view_low_some hl ht hg hv
              obtain ⟨p1, p2, p3⟩ := hl.plain l n h2
              exact ⟨Or.inr (Or.inr ⟨rfl, _, l, rfl, hd, p3, p2, p1, h1, FS.isDirAt_iff.2 ⟨n, h2, hd⟩⟩), p3, fun rd h => by rw [p1] at h; cases h⟩
          obtain ⟨hrel, p2, p3⟩ := hrel
          have hd' : ({ n with uid := uid, gid := gid, perm := perm, dev := devAt st.upper [m] } : Node).isDir = true := hd
          obtain ⟨W, hbel⟩ := writtenM_set hl ht hsub hN hNv hpar (n := { n with uid := uid, gid := gid, perm := perm, dev := devAt st.upper [m] }) (fun h => by rw [hd'] at h; cases h)
          have ho : ∀ k, some ({ n with uid := uid, gid := gid, perm := perm, dev := devAt st.upper [m] } : Node) = some k → k.whiteout = false := fun k h => by cases h; exact p2
          have hl' := W.lawful hl ho
          have ht' := W.topOk ht hsub
          have hv' := viewM_stored hl' ht' W.at_
          rw [if_neg (by rw [not_whiteout_dir hd' p2]; simp)] at hv'
          have hkd : n.kind = .dir := by simpa using hd2
          have hlows : ∀ y, sub <+: y → lowOf { st with upper := (copyUp st m mp sub.dropLast.reverse).set (m :: sub) { n with uid := uid, gid := gid, perm := perm, dev := devAt st.upper [m] } } m mp y = lowOf st m mp y := by
            intro y _
            have h0 : lowOf { st with upper := (copyUp st m mp sub.dropLast.reverse).set (m :: sub) { n with uid := uid, gid := gid, perm := perm, dev := devAt st.upper [m] } } m mp [] = lowOf st m mp [] := by
              obtain ⟨t, t1, t2, t3⟩ := lookup_nil hl ht
              obtain ⟨t', t1', t2', t3'⟩ := lookup_nil hl' ht'
              unfold lowOf; rw [t3, t3']; rfl
            have := low_shift hl hl' rfl ht ht' h0 y (fun q _ hq => by
              rw [List.nil_append]
              by_cases hqs : q = sub
              · subst hqs
                rw [W.at_]; exact hrel
              · by_cases hb : Below sub q
                · exact Or.inl (hbel q hb)
                · rcases W.at_off (y := q) (fun hc => hb (below_iff.2 ⟨hc, fun e => hqs e.symm⟩)) with h' | h'
                  · exact Or.inl h'
                  · exact h'.rel hl)
            simpa using this
          refine W.updated hl ht hsub ho (by rw [hv']; simp [attrsOf, hkd]) (fun y hb => ?_) (fun k h => by cases h; exact Or.inl hkd) (fun k h hk _ => ⟨⟨_, hv', hd', by rw [hv] at h; cases h; exact ⟨rfl, rfl⟩⟩, hlows⟩)
            (fun y k rd hp hg hrd => ⟨hlows y hp, ?_⟩) (fun y l hp hl0 => by rw [← hlows y hp]; exact hl0)
          · cases hg : st.upper.get (m :: y) with
            | some k => rw [viewM_stored hl ht hg, viewM_stored hl' ht' (show FS.get _ _ = _ from by rw [hbel y hb, hg])]
            | none => rw [viewM_belowLow hl ht hg, viewM_belowLow hl' ht' (show FS.get _ _ = _ from by rw [hbel y hb, hg]), hlows y hb.prefix]
          · by_cases hy : y = sub
            · subst hy
              rw [W.at_] at hg; cases hg
              exact ⟨n, p3 rd hrd, hrd, rfl, rfl⟩
            · rw [hbel y (below_iff.2 ⟨hp, fun e => hy e.symm⟩)] at hg
              exact ⟨k, hg, hrd, rfl, rfl⟩
        · have hd2 : ¬ (n.kind == .dir) = true := hd
          rw [if_neg hd2, if_neg hd]
          exact ⟨(fun v h => by cases h), fun _ => rfl⟩
    | remove =>
      simp only [actAttrs, actUpper, hpar, Bool.not_true, Bool.false_eq_true, if_false]
      cases hv : Spec.view st m mp sub with
      | none => exact ⟨(fun v h => by simp [attrsOf] at h), fun _ => rfl⟩
      | some n =>
        simp only [attrsOf, Option.map_some]
        have hdn : (n.kind == .dir) = n.isDir := rfl
        rw [hdn]
        by_cases hc : (n.isDir && childSeen st m mp sub) = true
        · rw [if_pos hc, if_pos hc]
          exact ⟨(fun v h => by cases h), fun _ => rfl⟩
        · rw [if_neg hc, if_neg hc]
          refine ⟨fun v hv => ?_, (fun h => by cases h)⟩
          cases hv
          have hbefore : ∀ y, Below sub y → Spec.view st m mp y = none := by
            intro y hb
            cases hvy : Spec.view st m mp y with
            | none => rfl
            | some k =>
              have h1 := viewM_above hl ht hvy hb
              rw [hv] at h1
              have h2 : childSeen st m mp sub = true := (childM_iff hl ht).2 ⟨y, hb, by rw [hvy]; rfl⟩
              rw [show n.isDir = true from h1, h2] at hc
              exact absurd rfl hc
          cases hlp : lowerPositive st m mp sub with
          | true =>
            simp only [if_true]
            obtain ⟨W, hbel⟩ := writtenM_prune hl ht hsub hN hNv hpar (o := some { kind := .chr 0, dev := devAt st.upper [m] }) (fun k h => by cases h; rfl) _ rfl
            dsimp only at W hbel
            have ho : ∀ k, some ({ kind := .chr 0, dev := devAt st.upper [m] } : Node) = some k → k.whiteout = false := fun k h => by cases h; rfl
            have hl' := W.lawful hl ho
            have ht' := W.topOk ht hsub
            have hv' := viewM_stored hl' ht' W.at_
            rw [if_pos (show isWhiteout ({ kind := .chr 0, dev := devAt st.upper [m] } : Node) = true from rfl)] at hv'
            refine W.updated hl ht hsub ho (by rw [hv']; rfl) (fun y hb => ?_) (fun k h => by cases h; exact Or.inr (Or.inl rfl)) (fun k _ _ h => absurd rfl h) (fun y n rd hp hg hrd => ?_) (fun y l hp hl0 => ?_)
            · rw [hbefore y hb]
              rw [noneM_below hl' ht' hb (by rw [hv']; rfl)]
            · by_cases hy : y = sub
              · subst hy; rw [W.at_] at hg; cases hg; cases hrd
              · rw [hbel y (below_iff.2 ⟨hp, fun e => hy e.symm⟩)] at hg; cases hg
            · by_cases hy : y = sub
              · subst hy; rw [low_of_none hl' ht' hv'] at hl0; cases hl0
              · rw [low_of_none hl' ht' (noneM_below hl' ht' (below_iff.2 ⟨hp, fun e => hy e.symm⟩) (by rw [hv']; rfl))] at hl0; cases hl0
          | false =>
            simp only [Bool.false_eq_true, if_false]
            obtain ⟨W, hbel⟩ := writtenM_prune hl ht hsub hN hNv hpar (o := none) (fun k h => by cases h) _ rfl
            dsimp only at W hbel
            have ho : ∀ k, (none : Option Node) = some k → k.whiteout = false := fun k h => by cases h
            have hl' := W.lawful hl ho
            have ht' := W.topOk ht hsub
            have hv' : Spec.view { st with upper := (copyUp st m mp sub.dropLast.reverse).filter (fun e => !(m :: sub).isPrefixOf e.1) } m mp sub = none := by
              rw [viewM_belowLow hl' ht' W.at_]
              have e := W.low hl ht hsub ho (y := z) (fun h => by have := h.length_le; rw [hzx, List.length_append] at this; simp only [List.length_singleton] at this; omega)
              have : lowOf { st with upper := (copyUp st m mp sub.dropLast.reverse).filter (fun e => !(m :: sub).isPrefixOf e.1) } m mp sub = none := by
                have hat := W.at_
                generalize List.filter (fun e => !(m :: sub).isPrefixOf e.1) (copyUp st m mp sub.dropLast.reverse) = u at *
                rw [hlo] at e
                unfold lowOf at e ⊢
                rw [hzx] at hat ⊢
                rw [lookup_snoc hl' ht']
                cases hz : Spec.lookup { st with upper := u } m mp z with
                | none => rfl
                | some d =>
                  rw [hz] at e
                  have hd : d.lower = lo := by simpa using e
                  rw [show ({ st with upper := u } : State).upper.get (m :: (z ++ [x])) = none from hat]
                  simp only [Option.bind_some, foundAt, hd, Option.map_eq_none_iff]
                  cases lo with
                  | none => rfl
                  | some l =>
                    simp only [Option.map_some, Option.bind_some]
                    apply present_of.2
                    unfold lowerPositive at hlp
                    rw [hdl] at hlp
                    unfold lowOf at hlo
                    cases hz0 : Spec.lookup st m mp z with
                    | none => rw [hz0] at hlo; cases hlo
                    | some d0 =>
                      rw [hz0] at hlo hlp
                      have hd0 : d0.lower = some l := by simpa using hlo
                      simp only [hd0] at hlp
                      rw [hzx] at hlp
                      simpa using hlp
              rw [this]; rfl
            refine W.updated hl ht hsub ho (by rw [hv']; rfl) (fun y hb => ?_) (fun k h => by cases h) (fun k _ _ h => absurd rfl h) (fun y n rd hp hg hrd => ?_) (fun y l hp hl0 => ?_)
            · rw [hbefore y hb]
              rw [noneM_below hl' ht' hb (by rw [hv']; rfl)]
            · by_cases hy : y = sub
              · subst hy; rw [W.at_] at hg; cases hg
              · rw [hbel y (below_iff.2 ⟨hp, fun e => hy e.symm⟩)] at hg; cases hg
            · by_cases hy : y = sub
              · subst hy; rw [low_of_none hl' ht' hv'] at hl0; cases hl0
              · rw [low_of_none hl' ht' (noneM_below hl' ht' (below_iff.2 ⟨hp, fun e => hy e.symm⟩) (by rw [hv']; rfl))] at hl0; cases hl0

end SB
