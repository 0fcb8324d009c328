import Verif.Props.During
import Verif.Lib.OneDev

/-!
# C107: an interrupted accept can be repeated
-/

namespace SB

/-- What makes repeating an interrupted accept safe: no links are stored and none is in the place of a stored path, and below a stored opaque directory there are only ordinary
files and directories. -/
structure Spec.Repeatable (env : Env) (st : State) : Prop where
  noLinks : ∀ m mp sub n, env.decode m = some mp → sub ≠ [] → st.upper.get (m :: sub) = some n → Spec.ftype n.kind ≠ .symlink
  noHostLinks : ∀ m mp sub n k, env.decode m = some mp → sub ≠ [] → st.upper.get (m :: sub) = some n → st.lower.get (mp ++ sub) = some k → Spec.ftype k.kind ≠ .symlink
  once : ∀ m mp sub n m' mp' sub' n', env.decode m = some mp → sub ≠ [] → st.upper.get (m :: sub) = some n → n.opq = true → env.decode m' = some mp' → sub' ≠ [] →
    st.upper.get (m' :: sub') = some n' → Below (mp ++ sub) (mp' ++ sub') → Spec.isWhiteout n' = false ∧ n'.opq = false

section
variable {env env' : Env} {st st' : State}

/-- The type of what is at a host path during accept. -/
theorem during_kind (ho : Spec.Ordinary env st) (hp : Spec.PlainStorage env st) (ha : AcceptState env st st') {q : Path} {k : Node} (hk : st'.lower.get q = some k) :
    (Spec.Temp env (selected env st) q ∧ Spec.ftype k.kind = .file) ∨ (∃ k0, st.lower.get q = some k0 ∧ k.kind = k0.kind) ∨
    ∃ m mp sub n, env.decode m = some mp ∧ sub ≠ [] ∧ st.upper.get (m :: sub) = some n ∧ Spec.isWhiteout n = false ∧ mp ++ sub = q ∧ k.kind = n.kind := by
  obtain ⟨st1, hc, hl⟩ := acceptState_lower ha
  rw [hl] at hk
  by_cases ht : Spec.Temp env (selected env st) q
  · left
    refine ⟨ht, ?_⟩
    cases ht with
    | copy e i he hs h =>
      have := crash_temps ho.ready hc _ ⟨i, e, he, rfl⟩ q (by rw [← h]; simp) k hk
      unfold Node.isReg Kind.isReg at this
      cases hkk : k.kind <;> rw [hkk] at this <;> simp at this
      rfl
    | rename e s i he hop hs h => exact absurd ⟨e, he, hop, rfl, s, hs, rfl⟩ (no_renames hp)
  · right
    rcases (crash_host ho.ready hc).2 q ht with h | ⟨e, he, hs, hd, s, hst, h⟩ | ⟨s, d, r, h, _⟩ | ⟨h, _⟩
    · left
      unfold FS.kindAt at h
      rw [hk] at h
      cases hg : st.lower.get q with
      | none => rw [hg] at h; cases h
      | some k0 => rw [hg] at h; exact ⟨k0, rfl, by simpa using h⟩
    · right
      obtain ⟨m, mp, sub, n, h1, h2, h3, h4, h5, h6⟩ := set_stored he hs
      rw [hst] at h6
      cases h6
      refine ⟨m, mp, sub, n, h1, h2, h3, ?_, by rw [← h5, hd], ?_⟩
      · cases hx : Spec.isWhiteout n with
        | false => rfl
        | true => rw [(isRemoved_iff_whiteout hp h3).2 hx] at h4; cases h4
      · unfold FS.kindAt at h; rw [hk] at h; simpa using h
    · exact absurd h (no_renames hp)
    · unfold FS.kindAt at h; rw [hk] at h; cases h

/-- The storage is as plain as before. -/
theorem repeat_plain (ho : Spec.Ordinary env st) (hp : Spec.PlainStorage env st) (hr : Spec.Repeatable env st) (hdec : env'.decode = env.decode) (ha : AcceptState env st st')
    (hu : st'.upper = st.upper) : Spec.PlainStorage env' st' := by
  obtain ⟨st1, hc, hl⟩ := acceptState_lower ha
  refine ⟨by rw [hu]; exact hp.wf, by rw [hu]; exact hp.noRedirects, by rw [hu]; exact hp.whiteouts, by rw [hu]; exact hp.devices, fun m mp hm hd => ?_, ?_,
    fun m mp sub n k hd hg hw hk hlnk => ?_⟩
  · rw [hu] at hm ⊢
    rw [hdec] at hd
    rw [hl, (crash_host ho.ready hc).1 mp (mount_untouched ho hp hm hd)]
    exact hp.mounts m mp hm hd
  · rw [hu, hdec]; exact hp.nested
  · exfalso
    rw [hdec] at hd
    rw [hu] at hg
    by_cases hne : sub = []
    · subst hne
      obtain ⟨n', hn', hd'⟩ := (hp.mounts m mp (FS.mem_keys.2 ⟨n, hg⟩) hd).2
      rw [hg] at hn'; cases hn'
      unfold Spec.isWhiteout at hw
      rw [Bool.or_eq_true] at hw
      rcases hw with hw | hw
      · rw [beq_iff_eq] at hw; rw [hw] at hd'; cases hd'
      · rw [hp.whiteouts _ _ hg hw] at hd'; cases hd'
    · rcases during_kind ho hp ha hk with ⟨_, h⟩ | ⟨k0, h0, h⟩ | ⟨m', mp', sub', n', h1, h2, h3, _, _, h⟩
      · rw [h] at hlnk; cases hlnk
      · exact hr.noHostLinks m mp sub n k0 hd hne hg h0 (by rw [← h]; exact hlnk)
      · exact hr.noLinks m' mp' sub' n' h1 h2 h3 (by rw [← h]; exact hlnk)

/-- A stored path with something stored below its place, which hides something, is an opaque directory (if it belongs to the same mount). -/
theorem above_opaque (hp : Spec.PlainStorage env st) {m : Name} {sub sub' : Path} {n n' : Node} (hg : st.upper.get (m :: sub) = some n) (hh : Spec.Hiding n)
    (hg' : st.upper.get (m :: sub') = some n') (hb : Below sub sub') : n.opq = true := by
  obtain ⟨d, hd1, hd2⟩ := FS.isDirAt_iff.1 (hp.wf.ancestor (q := m :: sub) hg' (below_iff.2 ⟨List.cons_prefix_cons.2 ⟨rfl, hb.prefix⟩, fun h => hb.ne (List.cons.inj h).2⟩))
  rw [hg] at hd1; cases hd1
  have hdir : Spec.ftype n.kind = .directory := by unfold Node.isDir at hd2; simp at hd2; rw [hd2]; rfl
  rcases hh with h | h | h
  · unfold Spec.isWhiteout at h
    rw [Bool.or_eq_true] at h
    rcases h with h | h
    · rw [beq_iff_eq] at h; rw [h] at hdir; cases hdir
    · rw [hp.whiteouts _ _ hg h] at hdir; cases hdir
  · exact h
  · exact absurd hdir h

/-- Everything can still be accepted. -/
theorem repeat_ready (ho : Spec.Ordinary env st) (hp : Spec.PlainStorage env st) (hrd : Spec.AcceptReady env st) (hr : Spec.Repeatable env st) (hall : Spec.AllSelected env st) (hone : Spec.OneDevice st.lower)
    (hdec : env'.decode = env.decode) (ha : AcceptState env st st') (hu : st'.upper = st.upper) : Spec.AcceptReady env' st' := by
  obtain ⟨st1, hc, hl⟩ := acceptState_lower ha
  have hw' : st'.lower.WF := by rw [hl]; exact crash_wf ho.ready hc
  have hdev : ∃ D, ∀ q n, st'.lower.get q = some n → n.dev = D := by
    obtain ⟨D, hD⟩ := hone
    have : OneDev D st.lower := ⟨fun e he => hD e.1 e.2 (FS.get_of_mem ho.wf.nodup he), FS.isDirAt_iff.1 ho.wf.root⟩
    exact ⟨D, fun q n hq => (crash_oneDev hc this).get (by rw [← hl]; exact hq)⟩
  obtain ⟨D, hD⟩ := hdev
  -- nothing stored is in a different mount below something hidden
  have samem : ∀ {m mp sub n m' mp' sub' n'}, env.decode m = some mp → sub ≠ [] → st.upper.get (m :: sub) = some n → Spec.Hiding n → env.decode m' = some mp' → sub' ≠ [] →
      st.upper.get (m' :: sub') = some n' → Below (mp ++ sub) (mp' ++ sub') → n.opq = true := by
    intro m mp sub n m' mp' sub' n' h1 h2 h3 h4 h5 h6 h7 hb
    by_cases hmm : m' = m
    · subst hmm
      rw [h1] at h5; cases h5
      refine above_opaque hp h3 h4 h7 ?_
      obtain ⟨r, hr1, hr2⟩ := hb
      exact ⟨r, hr1, by rw [List.append_assoc] at hr2; exact List.append_cancel_left hr2⟩
    · exfalso
      have hpre : mp <+: mp' ++ sub' := (List.prefix_append _ _).trans hb.prefix
      rcases prefix_total hpre (List.prefix_append mp' sub') with h | h
      · obtain ⟨_, hn⟩ := hp.nested m' mp' m mp sub n (stored_root hp h7) h5 (Ne.symm hmm) h1 h h2 h3
        rcases prefix_total hb.prefix (List.prefix_append mp' sub') with h8 | h8
        · exact hn h4 h8
        · have := (hp.nested m' mp' m mp sub n (stored_root hp h7) h5 (Ne.symm hmm) h1 h h2 h3).1
          exact this h8
      · obtain ⟨hn, _⟩ := hp.nested m mp m' mp' sub' n' (stored_root hp h3) h1 hmm h5 h h6 h7
        exact hn hpre
  refine ⟨by rw [hu, hdec]; exact hrd.stored, fun m mp sub n q k hd hne hg hh hpre hk => ?_, fun m mp sub n m' mp' sub' n' k hd hne hg hh hd' hne' hg' hh' hb hk => ?_,
    fun m mp sub n k hd hne hg hf hk => ?_⟩
  · rw [hdec] at hd; rw [hu] at hg
    refine ⟨?_, fun _ k' hk' => by rw [hD _ _ hk, hD _ _ hk']⟩
    rcases during_kind ho hp ha hk with ⟨_, h⟩ | ⟨k0, h0, h⟩ | ⟨m', mp', sub', n', h1, h2, h3, h4, _, h⟩
    · exact Or.inl h
    · rw [h]; exact (hrd.hidden m mp sub n q k0 hd hne hg hh hpre h0).1
    · rw [h]; exact hrd.stored m' mp' sub' n' h1 h2 h3 h4
  · rw [hdec] at hd hd'; rw [hu] at hg hg'
    have hopq := samem hd hne hg hh hd' hne' hg' hb
    obtain ⟨g1, g2⟩ := hr.once m mp sub n m' mp' sub' n' hd hne hg hopq hd' hne' hg' hb
    have g3 : Spec.ftype n'.kind ≠ .directory := by
      rcases hh' with h | h | h
      · rw [g1] at h; cases h
      · rw [g2] at h; cases h
      · exact h
    refine ⟨g1, g2, ?_⟩
    rcases during_kind ho hp ha hk with ⟨_, h⟩ | ⟨k0, h0, h⟩ | ⟨m2, mp2, sub2, n2, h1, h2, h3, h4, h5, h⟩
    · rw [h]; decide
    · have := hrd.once m mp sub n m' mp' sub' n' k0 hd hne hg hh hd' hne' hg' hh' hb h0
      rw [h]; exact this.2.2
    · have hmm : m2 = m' := ho.mounts m2 m' sub2 sub' mp2 mp' (FS.mem_keys.2 ⟨n2, h3⟩) (FS.mem_keys.2 ⟨n', hg'⟩) h1 hd' h2 hne' h5
      subst hmm
      rw [h1] at hd'; cases hd'
      have := List.append_cancel_left h5
      subst this
      rw [h3] at hg'; cases hg'
      rw [h]
      exact ⟨g3, hr.noLinks _ _ _ _ h1 h2 h3⟩
  · rw [hdec] at hd; rw [hu] at hg ⊢
    have hnl : Spec.ftype k.kind ≠ .symlink := by
      rcases during_kind ho hp ha hk with ⟨_, h⟩ | ⟨k0, h0, h⟩ | ⟨m2, mp2, sub2, n2, h1, h2, h3, h4, h5, h⟩
      · rw [h]; decide
      · rw [h]; exact hr.noHostLinks m mp sub n k0 hd hne hg h0
      · rw [h]; exact hr.noLinks m2 mp2 sub2 n2 h1 h2 h3
    have hwn : Spec.isWhiteout n = false := by
      unfold Spec.isWhiteout
      rw [Bool.or_eq_false_iff]
      refine ⟨?_, ?_⟩
      · rw [beq_eq_false_iff_ne]; intro h; rw [h] at hf; cases hf
      · cases hx : n.whiteout with
        | false => rfl
        | true => rw [hp.whiteouts _ _ hg hx] at hf; cases hf
    by_cases hopq : n.opq = true
    · right; left
      refine ⟨hopq, ?_⟩
      have hl' := isLnk_of_ftype hnl
      unfold FS.pexists
      rw [FS.stat_chain (hw'.normal_of_get hk) hw'.root (hw'.chain hk) (fun x hx => by rw [hk] at hx; cases hx; exact hl'), hk]
    rcases during_kind ho hp ha hk with ⟨ht, h⟩ | ⟨k0, h0, h⟩ | ⟨m2, mp2, sub2, n2, h1, h2, h3, h4, h5, h⟩
    · exfalso
      obtain ⟨e0, he0, _, hd0, _⟩ := stored_isSet hp hrd hall hd hne hg hwn
      cases ht with
      | copy e i he hs h => exact (ho.fresh.copy i e he).dest e0 he0 (by rw [hd0, ← h]; simp)
      | rename e s i he hop hs h => exact no_renames hp ⟨e, he, hop, rfl, s, hs, rfl⟩
    · rcases hrd.dirs m mp sub n k0 hd hne hg hf h0 with h1 | ⟨h1, _⟩ | h1
      · left; rw [h]; exact h1
      · exact absurd h1 hopq
      · right; right; exact h1
    · have hmm : m2 = m := ho.mounts m2 m sub2 sub mp2 mp (FS.mem_keys.2 ⟨n2, h3⟩) (FS.mem_keys.2 ⟨n, hg⟩) h1 hd h2 hne h5
      subst hmm
      rw [h1] at hd; cases hd
      have := List.append_cancel_left h5
      subst this
      rw [h3] at hg; cases hg
      left; rw [h]; exact hf

theorem sameNode_join {a b n : Node} (h1 : Spec.SameNode a n) (h2 : Spec.SameNode b n) : Spec.SameNode b a := by
  obtain ⟨a1, a2, a3, a4⟩ := h1
  obtain ⟨b1, b2, b3, b4⟩ := h2
  refine ⟨b1.trans a1.symm, b2.trans a2.symm, b3.trans a3.symm, ?_⟩
  rcases b4 with h | h
  · exact Or.inl h
  · rcases a4 with h' | h'
    · left; rw [b1, ← a1]; exact h'
    · right; exact h.trans h'.symm

/-- What is not below a mount point is not touched. -/
theorem outside_untouched (hp : Spec.PlainStorage env st) {q : Path} (hq : ∀ m mp, [m] ∈ st.upper.keys → env.decode m = some mp → ¬ Below mp q) :
    ¬ Spec.Touched env (selected env st) q := by
  intro ht
  cases ht with
  | removed e s he hop hs h =>
    obtain ⟨m', mp', sub', n', g1, g2, g3, g4, g5⟩ := removes_hiding hp ⟨e, he, hop, s, hs, h⟩
    exact hq m' mp' (stored_root hp g3) g1 (below_of_below_prefix ⟨sub', g2, rfl⟩ g5)
  | dest e he hs h =>
    obtain ⟨m', mp', sub', n', g1, g2, g3, g4, g5, _⟩ := set_stored he hs
    exact hq m' mp' (stored_root hp g3) g1 ⟨sub', g2, by rw [← h, g5]⟩
  | copyTemp e i he hs h =>
    obtain ⟨m', mp', sub', n', g1, g2, g3, g4, g5, _⟩ := set_stored he hs
    exact hq m' mp' (stored_root hp g3) g1 ⟨sub'.dropLast ++ [Spec.copyName e.dest (env.uuidC i)], by simp, by
      rw [← h, g5, List.dropLast_append_of_ne_nil g2, List.append_assoc]⟩
  | renSource e s he hop hs _ => exact no_renames hp ⟨e, he, hop, rfl, s, hs, rfl⟩
  | renDest e he hop _ =>
    obtain ⟨s, hs⟩ := changes_rename_source (mem_selected he) hop
    exact no_renames hp ⟨e, he, hop, rfl, s, hs, rfl⟩
  | renTemp e s i he hop hs _ => exact no_renames hp ⟨e, he, hop, rfl, s, hs, rfl⟩

end

/-- **C107 (partial)**: if accepting everything is interrupted - or fails - at any point before the storage is cleared, it can be repeated: the repeated accept succeeds, and the host is then
the same as after an accept that was not interrupted (at every path but those of temporary files of the first run).  `env'` is the second run (other UUIDs; it may be given other
options as long as everything is selected); it runs under ordinary circumstances, too.
Missing: interruptions while the storage is cleared (`C107_refuted_new_directory`), links (`C107_refuted_link`), renamed directories (`C107_refuted_moved`), whiteouts and opaque directories
below opaque directories, hosts with several file systems. -/
theorem C107_repeat_partial (env env' : Env) (st st' : State) (ho : Spec.Ordinary env st) (hp : Spec.PlainStorage env st) (hrd : Spec.AcceptReady env st) (hr : Spec.Repeatable env st)
    (hall : Spec.AllSelected env st) (hdu : Spec.OneDevice st.upper) (hdl : Spec.OneDevice st.lower) (ha : AcceptState env st st') (hu : st'.upper = st.upper)
    (hdec : env'.decode = env.decode) (ho' : Spec.Ordinary env' st') (hall' : Spec.AllSelected env' st') :
    (accept env st).error = none ∧ (accept env' st').error = none ∧
    (∀ m mp sub, Spec.Seen env st m mp (mp ++ sub) → ¬ Spec.Temp env (selected env st) (mp ++ sub) →
      ((accept env st).state.lower.get (mp ++ sub) = none → (accept env' st').state.lower.get (mp ++ sub) = none) ∧
      (∀ a, (accept env st).state.lower.get (mp ++ sub) = some a → ∃ b, (accept env' st').state.lower.get (mp ++ sub) = some b ∧ Spec.SameNode b a)) ∧
    (∀ q, (∀ m mp, [m] ∈ st.upper.keys → env.decode m = some mp → ¬ Below mp q) → (accept env' st').state.lower.get q = (accept env st).state.lower.get q) := by
  have hok := C85_everything_partial env st ho hp hrd hall hdu
  have hp' := repeat_plain (env' := env') ho hp hr hdec ha hu
  have hok' := C85_everything_partial env' st' ho' hp' (repeat_ready ho hp hrd hr hall hdl hdec ha hu) hall' (by rw [hu]; exact hdu)
  obtain ⟨v, o⟩ := C01_view_partial env st ho hp hall hok
  obtain ⟨v', o'⟩ := C01_view_partial env' st' ho' hp' hall' hok'
  refine ⟨hok, hok', fun m mp sub hs ht => ?_, fun q hq => ?_⟩
  · have hs' : Spec.Seen env' st' m mp (mp ++ sub) := by
      obtain ⟨h1, h2, h3, h4⟩ := hs
      exact ⟨by rw [hu]; exact h1, by rw [hdec]; exact h2, h3, by rw [hu, hdec]; exact h4⟩
    have hv := C106_view_partial env st st' ho hp ha hu m mp sub hs ht
    obtain ⟨v1, v2⟩ := v m mp sub hs
    obtain ⟨w1, w2⟩ := v' m mp sub hs'
    cases hx : Spec.view st m mp sub with
    | none =>
      rw [v1 hx, w1 (hv.trans hx)]
      exact ⟨fun _ => rfl, (fun a h => by cases h)⟩
    | some n =>
      obtain ⟨a, ha1, ha2⟩ := v2 n hx
      obtain ⟨b, hb1, hb2⟩ := w2 n (hv.trans hx)
      rw [ha1, hb1]
      refine ⟨(fun h => by cases h), fun a' h => ?_⟩
      cases h
      exact ⟨b, rfl, sameNode_join ha2 hb2⟩
  · obtain ⟨st1, hc, hl⟩ := acceptState_lower ha
    rw [o q hq, o' q (by rw [hu, hdec]; exact hq), hl, (crash_host ho.ready hc).1 q (outside_untouched hp hq)]

/-! ### Refutations -/

/-- **C107 refuted** for a directory made in the sandbox (`mkdir d; echo x > d/f`): accept clears the storage file by file, and a new directory is stored as opaque.  If accept
is interrupted while it does so - everything has been applied to the host by then - the sandbox shows the directory as empty, and repeating the accept deletes the file on
the host.  (An accept that is not interrupted leaves it there.) -/
theorem C107_refuted_new_directory : Spec.Ordinary exViewEnv exNewDir ∧ Spec.AllSelected exViewEnv exNewDir ∧
    ∃ st', AcceptState exViewEnv exNewDir st' ∧ (st'.lower.get [str "d", str "f"]).map (·.kind) = some (.reg (str "x")) ∧ st'.upper.get [str "F4", str "d", str "f"] = none ∧
      (accept (exAgain exViewEnv) st').error = none ∧ (accept (exAgain exViewEnv) st').state.lower.get [str "d", str "f"] = none ∧
      (accept exViewEnv exNewDir).error = none ∧ ((accept exViewEnv exNewDir).state.lower.get [str "d", str "f"]).map (·.kind) = some (.reg (str "x")) := by
  refine ⟨ordinary_of_check (fun _ => rfl) (fun _ => rfl) (by decide +kernel) (by decide +kernel) (by decide +kernel), ?_, interrupted exViewEnv exNewDir 8, ?_, ?_⟩
  · have : selected exViewEnv exNewDir = changes exViewEnv exNewDir := by decide +kernel
    intro e he
    rw [this]
    exact he
  · exact interrupted_state (by decide +kernel) (by decide +kernel)
  · decide +kernel

/-- Host with `/data/x`; in the sandbox: `ln -s /data s`. -/
def exNewLink : State := ⟨[([], { kind := .dir }), ([str "data"], { kind := .dir }), ([str "data", str "x"], { kind := .reg (str "precious") })],
  [([], { kind := .dir }), ([str "F4"], { kind := .dir }), ([str "F4", str "s"], { kind := .lnk (str "/data") })]⟩

/-- **C107 refuted** for a link to a directory made in the sandbox (`ln -s /data s`): if accept is interrupted (or fails at a later change) after it has made the link on
the host, repeating it takes the link for a directory that is to be replaced and deletes all files of the directory it leads to. -/
theorem C107_refuted_link : Spec.Ordinary exViewEnv exNewLink ∧ Spec.AllSelected exViewEnv exNewLink ∧
    ∃ st', AcceptState exViewEnv exNewLink st' ∧ st'.upper = exNewLink.upper ∧ st'.lower.get [str "data", str "x"] = exNewLink.lower.get [str "data", str "x"] ∧
      (accept (exAgain exViewEnv) st').error = none ∧ (accept (exAgain exViewEnv) st').state.lower.get [str "data", str "x"] = none ∧
      (accept exViewEnv exNewLink).state.lower.get [str "data", str "x"] = some { kind := .reg (str "precious") } := by
  refine ⟨ordinary_of_check (fun _ => rfl) (fun _ => rfl) (by decide +kernel) (by decide +kernel) (by decide +kernel), ?_, interrupted exViewEnv exNewLink 2, ?_, ?_⟩
  · have : selected exViewEnv exNewLink = changes exViewEnv exNewLink := by decide +kernel
    intro e he
    rw [this]
    exact he
  · exact interrupted_state (by decide +kernel) (by decide +kernel)
  · decide +kernel

/-- **C107 refuted** for moved directories: interrupted between its two renames, accept has put the directory under a temporary name; repeated, it refuses to do anything
since it does not find the directory. -/
theorem C107_refuted_moved : Spec.Ordinary exViewEnv exMoveDir ∧ Spec.AllSelected exViewEnv exMoveDir ∧ (accept exViewEnv exMoveDir).error = none ∧
    ∃ st', AcceptState exViewEnv exMoveDir st' ∧ st'.upper = exMoveDir.upper ∧ st'.lower.get [str "d", str "x"] = none ∧ st'.lower.get [str "e", str "x"] = none ∧
      st'.lower.get [str ".rename-d-to-e-#", str "x"] = some { kind := .reg (str "precious") } ∧
      (accept (exAgain exViewEnv) st').error = some (.entry [str "e"] .redirectPathNotFound) ∧ (accept (exAgain exViewEnv) st').state = st' := by
  refine ⟨ordinary_of_check (fun _ => rfl) (fun _ => rfl) (by decide +kernel) (by decide +kernel) (by decide +kernel), ?_, by decide +kernel, interrupted exViewEnv exMoveDir 1, ?_, ?_⟩
  · have : selected exViewEnv exMoveDir = changes exViewEnv exMoveDir := by decide +kernel
    intro e he
    rw [this]
    exact he
  · exact interrupted_state (by decide +kernel) (by decide +kernel)
  · decide +kernel


/-! ### A concrete case -/

/-- Host with `/d/x`, `/f` and `/o/y`; in the sandbox: `rm d/x; echo new > f; echo y > d/g; rm -r o; mkdir o; echo z > o/y`. -/
def exRep : State := ⟨[([], { kind := .dir }), ([str "d"], { kind := .dir }), ([str "d", str "x"], { kind := .reg (str "old") }), ([str "f"], { kind := .reg (str "f") }),
   ([str "o"], { kind := .dir }), ([str "o", str "y"], { kind := .reg (str "y") })],
  [([], { kind := .dir }), ([str "F4"], { kind := .dir }), ([str "F4", str "d"], { kind := .dir }), ([str "F4", str "d", str "x"], { kind := .chr 0 }),
   ([str "F4", str "d", str "g"], { kind := .reg (str "y"), uid := 7 }), ([str "F4", str "f"], { kind := .reg (str "new") }),
   ([str "F4", str "o"], { kind := .dir, opq := true }), ([str "F4", str "o", str "y"], { kind := .reg (str "z") })]⟩

/-- `Spec.Repeatable`, checked on the stored entries and those of the host. -/
theorem repeatable_of_check {env : Env} {st : State} (h1 : ∀ e ∈ st.upper, Spec.ftype e.2.kind ≠ .symlink)
    (h2 : ∀ e ∈ st.upper, ∀ p ∈ hostPlace env e.1, ∀ k ∈ st.lower.get p, Spec.ftype k.kind ≠ .symlink)
    (h3 : ∀ e ∈ st.upper, e.2.opq = true → ∀ e' ∈ st.upper, ∀ p ∈ hostPlace env e.1, ∀ p' ∈ hostPlace env e'.1, p <+: p' → p = p' ∨ (Spec.isWhiteout e'.2 = false ∧ e'.2.opq = false)) :
    Spec.Repeatable env st := by
  have hpl : ∀ {m mp sub}, env.decode m = some mp → sub ≠ [] → hostPlace env (m :: sub) = some (mp ++ sub) := by
    intro m mp sub hd hne
    simp [hostPlace, hd, hne]
  refine ⟨fun m mp sub n _ _ hg => h1 _ (FS.mem_of_get hg), fun m mp sub n k hd hne hg hk => h2 _ (FS.mem_of_get hg) _ (hpl hd hne) k hk,
    fun m mp sub n m' mp' sub' n' hd hne hg ho hd' hne' hg' hb => ?_⟩
  rcases h3 _ (FS.mem_of_get hg) ho _ (FS.mem_of_get hg') _ (hpl hd hne) _ (hpl hd' hne') hb.prefix with h | h
  · exact absurd h hb.ne
  · exact h

/-- `ordinary_of_check` for the marks of the second run. -/
theorem ordinary_again {env : Env} {st : State} (hw : st.lower.WF) (hn : st.upper.keys.Nodup)
    (h1 : let clean := fun x : Name => !x.contains '%' && !x.contains '$'
      (st.lower.keys.all (fun q => q.all clean) && (selected (exAgain env) st).all (fun e => e.dest.all clean) &&
        (selected (exAgain env) st).all (fun e => match e.source with | none => true | some s => s.path.all clean) && env.cwd.all clean) = true)
    (h2 : plainCheck (exAgain env) st.lower (selected (exAgain env) st) = true) (h3 : separateCheck (exAgain env) st.upper = true) : Spec.Ordinary (exAgain env) st := by
  refine ⟨hw, plainHost_of_check h2, ?_, hn, separate_of_check h3⟩
  simp only [Bool.and_eq_true, List.all_eq_true, Bool.not_eq_true', List.contains_eq_mem, decide_eq_false_iff_not] at h1
  obtain ⟨⟨⟨g1, g2⟩, g3⟩, g4⟩ := h1
  refine freshTemps_of_marks (a := '%') (b := '$') (by decide) (by decide) (by decide) (fun _ => rfl) (fun _ => rfl) (by decide) (by decide) g1 g2 (fun e he s hs => ?_) g4
  have := g3 e he
  rw [hs] at this
  simpa using this

theorem exRep_ordinary : Spec.Ordinary exViewEnv exRep := ordinary_of_check (fun _ => rfl) (fun _ => rfl) (by decide +kernel) (by decide +kernel) (by decide +kernel)
theorem exRep_plain : Spec.PlainStorage exViewEnv exRep := plainStorage_of_check (by decide +kernel) (by decide +kernel)
set_option synthInstance.maxSize 1000 in
set_option synthInstance.maxHeartbeats 200000 in
theorem exRep_ready : Spec.AcceptReady exViewEnv exRep :=
  acceptable_of_check (by decide +kernel) (by decide +kernel) (by decide +kernel) (by decide +kernel) (by decide +kernel)
theorem exRep_repeatable : Spec.Repeatable exViewEnv exRep := repeatable_of_check (by decide +kernel) (by decide +kernel) (by decide +kernel)
theorem exRep_all : Spec.AllSelected exViewEnv exRep := by
  have : selected exViewEnv exRep = changes exViewEnv exRep := by decide +kernel
  intro e he
  rw [this]
  exact he

/-- Interrupted after the old `o` has been deleted and while the new `o/y` is being written (its temporary copy is there). -/
def exRepMid : State := ⟨[([], { kind := .dir }), ([str "d"], { kind := .dir }), ([str "d", str "g"], { kind := .reg (str "y"), uid := 7 }), ([str "f"], { kind := .reg (str "new") }),
   ([str "o"], { kind := .dir }), ([str "o", str "y.@@@@@@@@"], { kind := .reg (str "z") })], exRep.upper⟩

theorem exRep_mid : interrupted exViewEnv exRep 18 = exRepMid := by decide +kernel

theorem exRep_state : AcceptState exViewEnv exRep exRepMid := exRep_mid ▸ interrupted_state (by decide +kernel) (by decide +kernel)

theorem exRep_again : Spec.Ordinary (exAgain exViewEnv) exRepMid ∧ Spec.AllSelected (exAgain exViewEnv) exRepMid := by
  refine ⟨ordinary_again (by decide +kernel) (by decide +kernel) (by decide +kernel) (by decide +kernel) (by decide +kernel), ?_⟩
  have : selected (exAgain exViewEnv) exRepMid = changes (exAgain exViewEnv) exRepMid := by decide +kernel
  intro e he
  rw [this]
  exact he

example : (accept (exAgain exViewEnv) exRepMid).error = none :=
  (C107_repeat_partial _ (exAgain exViewEnv) _ _ exRep_ordinary exRep_plain exRep_ready exRep_repeatable exRep_all (oneDevice_of_check 0 (by decide +kernel)) (oneDevice_of_check 0 (by decide +kernel))
    exRep_state rfl rfl exRep_again.1 exRep_again.2).2.1

-- the state is half way: the old file is gone, the new one not there yet, its copy is; the second run puts it in place and removes the copy
example : exRepMid.lower.get [str "o", str "y"] = none ∧
    ((accept (exAgain exViewEnv) exRepMid).state.lower.get [str "o", str "y"]).map (·.kind) = some (.reg (str "z")) ∧
    (accept (exAgain exViewEnv) exRepMid).state.lower.keys = [[], [str "d"], [str "d", str "g"], [str "f"], [str "o"], [str "o", str "y"]] := by decide +kernel

end SB
