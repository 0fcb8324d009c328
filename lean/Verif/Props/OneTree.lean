import Verif.Lib.OneTree
import Verif.Props.Race
import Verif.Props.Reject
import Verif.Props.During
import Verif.Props.RaceIn
import Verif.Props.Undo

/-!
# C114: the storage lies in the host's file tree
-/

namespace SB

/-! ### Specification -/

/-- The storage is the directory `B` of the host: what the sandbox has stored at `q` is the file `B/q` of the host. -/
structure Spec.StoredIn (B : Path) (st : State) : Prop where
  there : ∀ q, st.lower.get (B ++ q) = st.upper.get q
  tree : st.upper.WF

/-! ### Proofs -/

theorem Spec.Elsewhere.within {env : Env} {sel : List Entry} {B w : Path} (h : Spec.Elsewhere env sel B) (hw : B <+: w) : Spec.Elsewhere env sel w := by
  refine ⟨fun q hq hwq => h.above q hq (hw.trans hwq), fun q hq hqw => ?_⟩
  rcases prefix_total hqw hw with hx | hx
  · exact h.below q hq hx
  · exact absurd hx (h.above q hq)

/-- **C114, accept** (partial: nothing accepted concerns the storage or a directory above it, except owner and rights; storage on one file system): on the one tree accept has the same outcome
as on two; outside the storage it leaves exactly the host that the other claims speak of, and in the storage exactly the storage they speak of. -/
theorem C114_accept_partial (B : Path) (env : Env) (st : State) (hs : Spec.StoredIn B st) (ho : Spec.Ordinary env st) (hl : Spec.NoLinkToDir st.lower (selected env st)) (hd : Spec.OneDevice st.upper)
    (hB : Spec.Elsewhere env (selected env st) B) :
    (acceptOne B env st).2 = (accept env st).error ∧ (∀ q, ¬ B <+: q → (acceptOne B env st).1.get q = (accept env st).state.lower.get q) ∧
    ∀ q, (acceptOne B env st).1.get (B ++ q) = (accept env st).state.upper.get q := by
  have hsel : selected env st = matching env.glob env.cwd env.patterns (changes env st) := rfl
  obtain ⟨d, hd⟩ := hd
  by_cases hm : selected env st = []
  · have h1 : accept env st = { state := st, error := none, accepted := 0, nonMatching := nonMatchingCount (changes env st) [] } := by
      unfold accept; simp [← hsel, hm]
    have h2 : acceptOne B env st = (st.lower, none) := by unfold acceptOne; simp [← hsel, hm]
    rw [h1, h2]
    exact ⟨rfl, fun _ _ => rfl, hs.there⟩
  · cases hc : pretendCheck env st (selected env st) with
    | some e =>
      have h1 : (accept env st).state = st ∧ (accept env st).error = some e := by unfold accept; simp [← hsel, hm, hc]
      have h2 : acceptOne B env st = (st.lower, some e) := by unfold acceptOne; simp [← hsel, hm, hc]
      rw [h1.1, h1.2, h2]
      exact ⟨rfl, fun _ _ => rfl, hs.there⟩
    | none =>
      have h1 : (accept env st).state = (run (plan env (selected env st)) st).1 ∧ (accept env st).error = (run (plan env (selected env st)) st).2 := by
        unfold accept
        simp only
        rw [← hsel]
        simp only [hm, hc, if_false, and_self]
      have h2 : acceptOne B env st = runOne B (plan env (selected env st)) st.lower := by
        unfold acceptOne
        simp only
        rw [← hsel]
        simp only [hm, hc, if_false]
      rw [h1.1, h1.2, h2]
      have hap := apart_plan ho.ready ho.distinct hl (P := (B <+: ·)) (fun w hw => hB.within hw)
      have key := Sim.run (d := d) (a := st.lower) (u := st.upper) (fs := st.lower) ⟨ho.wf, hs.tree, ho.wf, fun _ _ => rfl, hs.there, hd⟩ hap (fun op hop p hp => by
        subst hp
        obtain ⟨e, he, s, hst, rfl⟩ := plan_stored hc hop rfl
        exact (changes_staged (mem_selected he) hst).2)
      rw [show (⟨st.lower, st.upper⟩ : State) = st from rfl] at key
      generalize run (plan env (selected env st)) st = R at key ⊢
      generalize runOne B (plan env (selected env st)) st.lower = S at key ⊢
      exact ⟨key.1, fun q hq => (key.2.off q hq).symm, key.2.has⟩

/-- **C114, interrupted accept** (partial: the same): wherever accept is stopped or fails on the one tree, also while it copies a file or clears the storage, the host outside the storage and the storage are in a state that the
other claims speak of (`AcceptState`). -/
theorem C114_interrupted_partial (B : Path) (env : Env) (st : State) (hs : Spec.StoredIn B st) (ho : Spec.Ordinary env st) (hl : Spec.NoLinkToDir st.lower (selected env st)) (hd : Spec.OneDevice st.upper)
    (hB : Spec.Elsewhere env (selected env st) B) (fs : FS) (h : AcceptOneState B env st fs) :
    ∃ st', AcceptState env st st' ∧ (∀ q, ¬ B <+: q → fs.get q = st'.lower.get q) ∧ ∀ q, fs.get (B ++ q) = st'.upper.get q := by
  cases h with
  | before => exact ⟨st, .before, fun _ _ => rfl, hs.there⟩
  | during hc hcr =>
    obtain ⟨d, hd⟩ := hd
    have hap := apart_plan ho.ready ho.distinct hl (P := (B <+: ·)) (fun w hw => hB.within hw)
    have key := Sim.crash (d := d) (a := st.lower) (u := st.upper) (fs := st.lower) (fs' := fs) (ops := plan env (selected env st)) ⟨ho.wf, hs.tree, ho.wf, fun _ _ => rfl, hs.there, hd⟩ hap (fun op hop p hp => by
      subst hp
      obtain ⟨e, he, s, hst, rfl⟩ := plan_stored hc hop rfl
      exact (changes_staged (mem_selected he) hst).2) hcr
    obtain ⟨st', g1, g2, g3⟩ := key
    exact ⟨st', .during hc g1, fun q hq => (g2 q hq).symm, g3⟩

theorem reject_one_tree {B : Path} {l : List Entry} : ∀ {last : Option Path} {fs u : FS}, Has B fs u → fs.WF → u.WF →
    (∀ e ∈ l, ∀ s, e.staged = some s → s.path ≠ [] ∧ NormalPath s.path ∧ u.NoLinkAbove s.path) →
    (rejectLoop (l.map (Entry.at B)) (last.map (B ++ ·)) fs).2 = (rejectLoop l last u).2 ∧ Has B (rejectLoop (l.map (Entry.at B)) (last.map (B ++ ·)) fs).1 (rejectLoop l last u).1 ∧
    ∀ q, ¬ B <+: q → (rejectLoop (l.map (Entry.at B)) (last.map (B ++ ·)) fs).1.get q = fs.get q := by
  induction l with
  | nil => intro last fs u h _ _ _; exact ⟨rfl, h, fun _ _ => rfl⟩
  | cons e l ih =>
    intro last fs u h hw hu he
    have hl' : ∀ e ∈ l, ∀ s, e.staged = some s → s.path ≠ [] ∧ NormalPath s.path ∧ u.NoLinkAbove s.path := fun e' he' => he e' (List.mem_cons_of_mem _ he')
    rw [List.map_cons]
    simp only [rejectLoop, Entry.at]
    cases hs : e.staged with
    | none => simp only [Option.map_none]; exact ih h hw hu hl'
    | some s =>
      simp only [Option.map_some]
      have hlast : (last.map (B ++ ·) = some (B ++ s.path)) ↔ last = some s.path := by
        cases last with
        | none => simp
        | some p => simp
      by_cases hp : last = some s.path
      · rw [if_pos hp, if_pos (hlast.2 hp)]; exact ih h hw hu hl'
      · rw [if_neg hp, if_neg (fun hx => hp (hlast.1 hx))]
        obtain ⟨h1, h2, h3⟩ := he e List.mem_cons_self s hs
        have hsame : SameAt B fs u s.path (if s.node.isDir = true then fs.rmdir (B ++ s.path) else fs.unlink (B ++ s.path)) (if s.node.isDir = true then u.rmdir s.path else u.unlink s.path) := by
          split
          · exact h.rmdir hw hu h1 h2 h3
          · exact h.unlink hw hu h1 h2 h3
        rcases hsame with ⟨x, hx, hy⟩ | ⟨hx, hy⟩
        · rw [hx, hy]; exact ⟨rfl, h, fun _ _ => rfl⟩
        · obtain ⟨_, hu'⟩ := reject_step hu h1 h2 h3 hy
          have hw' : (fs.del (B ++ s.path)).WF := by
            cases hd : s.node.isDir with
            | true =>
              rw [hd, if_pos rfl] at hx
              obtain ⟨c, n, hc, _, _, _, hh, he⟩ := FS.rmdir_ok hx
              rw [h.canon hw hu.root h1 h2 h3] at hc
              cases hcu : u.canon s.path with
              | error y => rw [hcu] at hc; cases hc
              | ok c' =>
                obtain rfl := FS.canon_nolink h2 h3 hcu
                rw [hcu] at hc; cases hc
                exact hw.del (by simp [h1]) (FS.del_hasChild_none hh)
            | false =>
              rw [hd, if_neg (by simp)] at hx
              obtain ⟨c, n, hc, hg, hd', he⟩ := FS.unlink_ok hx
              rw [h.canon hw hu.root h1 h2 h3] at hc
              cases hcu : u.canon s.path with
              | error y => rw [hcu] at hc; cases hc
              | ok c' =>
                obtain rfl := FS.canon_nolink h2 h3 hcu
                rw [hcu] at hc; cases hc
                exact hw.del_nondir hg hd'
          rw [hx, hy]
          simp only
          obtain ⟨k1, k2, k3⟩ := ih (last := some s.path) (h.del s.path) hw' hu' (fun e' he' t ht => by
            obtain ⟨g1, g2, g3⟩ := hl' e' he' t ht
            refine ⟨g1, g2, fun y hy n hn => g3 y hy n ?_⟩
            rw [FS.get_del] at hn
            split at hn
            · cases hn
            · exact hn)
          exact ⟨k1, k2, fun q hq => by
            rw [show (some s.path).map (B ++ ·) = some (B ++ s.path) from rfl] at k3
            rw [k3 q hq, FS.get_del, if_neg (fun hx => hq (by rw [← hx]; exact List.prefix_append _ _))]⟩

/-- **C114, reject**: on the one tree reject has the same outcome as on two; it changes nothing outside the storage, and in the storage what the other claims say. -/
theorem C114_reject (B : Path) (env : Env) (st : State) (hs : Spec.StoredIn B st) (hw : st.lower.WF) :
    (rejectOne B env st).2 = (reject env st).2 ∧ (∀ q, ¬ B <+: q → (rejectOne B env st).1.get q = st.lower.get q) ∧ ∀ q, (rejectOne B env st).1.get (B ++ q) = (reject env st).1.upper.get q := by
  have key := reject_one_tree (B := B) (l := stableSort byStagedDescending (selected env st)) (last := none) (fs := st.lower) (u := st.upper) hs.there hw hs.tree (fun e he s hst => by
    obtain ⟨h1, h2⟩ := changes_staged (mem_selected (mem_stableSort.1 he)) hst
    refine ⟨h2, hs.tree.normal_of_get h1, fun q hq n hn => ?_⟩
    obtain ⟨m, hm, hd⟩ := FS.isDirAt_iff.1 (hs.tree.ancestor h1 hq)
    rw [hn] at hm; cases hm
    unfold Node.isDir at hd
    have : n.kind = .dir := by simpa using hd
    simp [Node.isLnk, this, Kind.isLnk])
  unfold rejectOne reject
  exact ⟨key.1, key.2.2, key.2.1⟩

/-- The one tree when `k` of the changes that reject selects are handled, or reject has failed before. -/
def rejectOneUpTo (B : Path) (env : Env) (st : State) (k : Nat) : FS :=
  (rejectLoop (((stableSort byStagedDescending (selected env st)).map (Entry.at B)).take k) none st.lower).1

/-- **C114, interrupted reject**: wherever reject is stopped on the one tree, the host outside the storage is unchanged, and the storage is the one the other claims speak of (`rejectUpTo`). -/
theorem C114_reject_interrupted (B : Path) (env : Env) (st : State) (hs : Spec.StoredIn B st) (hw : st.lower.WF) (k : Nat) :
    (∀ q, ¬ B <+: q → (rejectOneUpTo B env st k).get q = st.lower.get q) ∧ ∀ q, (rejectOneUpTo B env st k).get (B ++ q) = (rejectUpTo env st k).upper.get q := by
  have key := reject_one_tree (B := B) (l := (stableSort byStagedDescending (selected env st)).take k) (last := none) (fs := st.lower) (u := st.upper) hs.there hw hs.tree (fun e he s hst => by
    obtain ⟨h1, h2⟩ := changes_staged (mem_selected (mem_stableSort.1 (List.mem_of_mem_take he))) hst
    refine ⟨h2, hs.tree.normal_of_get h1, fun q hq n hn => ?_⟩
    obtain ⟨m, hm, hd⟩ := FS.isDirAt_iff.1 (hs.tree.ancestor h1 hq)
    rw [hn] at hm; cases hm
    unfold Node.isDir at hd
    have : n.kind = .dir := by simpa using hd
    simp [Node.isLnk, this, Kind.isLnk])
  unfold rejectOneUpTo rejectUpTo
  rw [← List.map_take]
  exact ⟨key.2.2, key.2.1⟩

/-! ### Examples -/

theorem crashOne_take {B : Path} : ∀ (k : Nat) (ops : List Op) (fs : FS), CrashOne B ops fs (runOne B (ops.take k) fs).1 := by
  intro k
  induction k with
  | zero => intro ops fs; simp only [List.take_zero, runOne]; exact .here
  | succ k ih =>
    intro ops fs
    cases ops with
    | nil => simp only [List.take_nil, runOne]; exact .here
    | cons op ops =>
      simp only [List.take_succ_cons, runOne]
      rcases h : execOne B op fs with ⟨fs', e⟩
      cases e with
      | none => exact .later h (ih ops fs')
      | some e => exact .failed h

/-- A host with the storage `up` in the directory `B`. -/
def withStorage (host : FS) (B : Path) (up : FS) : State := ⟨host ++ up.map (fun x => (B ++ x.1, x.2)), up⟩

/-- `exDuring` with its storage in `/home/s`. -/
def exOneTree : State := withStorage (exDuring.lower ++ [([str "home"], { kind := .dir })]) [str "home", str "s"] exDuring.upper

theorem storedIn_of_check {B : Path} {st : State} (h1 : st.upper.WF) (h2 : st.lower.WF) (h3 : ∀ x ∈ st.upper, st.lower.get (B ++ x.1) = some x.2)
    (h4 : ∀ x ∈ st.lower, B.isPrefixOf x.1 = true → (st.upper.get (x.1.drop B.length)).isSome = true) : Spec.StoredIn B st := by
  refine ⟨fun q => ?_, h1⟩
  cases hu : st.upper.get q with
  | some n => exact h3 _ (FS.mem_of_get hu)
  | none =>
    cases hl : st.lower.get (B ++ q) with
    | none => rfl
    | some n =>
      have := h4 _ (FS.mem_of_get hl) (List.isPrefixOf_iff_prefix.2 (List.prefix_append _ _))
      simp [hu] at this

theorem exOneTree_stored : Spec.StoredIn [str "home", str "s"] exOneTree := storedIn_of_check (by decide +kernel) (by decide +kernel) (by decide +kernel) (by decide +kernel)

-- Non-vacuity of `C114_accept_partial` and `C114_reject`.
example : Spec.StoredIn [str "home", str "s"] exOneTree ∧ Spec.Ordinary exViewEnv exOneTree ∧ Spec.NoLinkToDir exOneTree.lower (selected exViewEnv exOneTree) ∧ Spec.OneDevice exOneTree.upper ∧
    Spec.Elsewhere exViewEnv (selected exViewEnv exOneTree) [str "home", str "s"] ∧ (acceptOne [str "home", str "s"] exViewEnv exOneTree).2 = none ∧
    (acceptOne [str "home", str "s"] exViewEnv exOneTree).1.get [str "home", str "s", str "F4", str "f"] = none ∧
    ((acceptOne [str "home", str "s"] exViewEnv exOneTree).1.get [str "f"]).map (·.kind) = some (.reg (str "new")) ∧ (rejectOne [str "home", str "s"] exViewEnv exOneTree).2 = none :=
  ⟨exOneTree_stored, ordinary_of_check (fun _ => rfl) (fun _ => rfl) (by decide +kernel) (by decide +kernel) (by decide +kernel), noLinkToDir_of_check (by decide +kernel),
    ⟨0, fun q n hn => (by decide +kernel : ∀ x ∈ exOneTree.upper, x.2.dev = 0) (q, n) (FS.mem_of_get hn)⟩, elsewhere_of_check (fun _ => rfl) (fun _ => rfl) (by decide +kernel),
    by decide +kernel, by decide +kernel, by decide +kernel, by decide +kernel⟩

-- Non-vacuity of `C114_interrupted_partial` (hypotheses above): after the first step of accept `d/x` is gone on the host, `f` is as before, and the storage still has everything.
example : ∃ fs, AcceptOneState [str "home", str "s"] exViewEnv exOneTree fs ∧ fs.get [str "d", str "x"] = none ∧ (exOneTree.lower.get [str "d", str "x"]).isSome ∧
    fs.get [str "f"] = exOneTree.lower.get [str "f"] ∧ (fs.get [str "home", str "s", str "F4", str "f"]).isSome :=
  ⟨_, .during (by decide +kernel) (crashOne_take 2 _ _), by decide +kernel, by decide +kernel, by decide +kernel, by decide +kernel⟩

-- `C114_reject_interrupted`: one change handled; the storage has lost one file and still has the others.
example : (rejectOneUpTo [str "home", str "s"] exViewEnv exOneTree 1).get [str "home", str "s", str "F4", str "f"] = none ∧
    (rejectOneUpTo [str "home", str "s"] exViewEnv exOneTree 1).length + 1 = exOneTree.lower.length ∧ 1 < (selected exViewEnv exOneTree).length :=
  ⟨by decide +kernel, by decide +kernel, by decide +kernel⟩

/-! ### Where it does not hold -/

/-- In the sandbox: `mv u v`; the storage is in `/u/s`. -/
def exMovedHome : State := withStorage [([], { kind := .dir }), ([str "u"], { kind := .dir }), ([str "u", str "x"], { kind := .reg (str "x") })] [str "u", str "s"]
  [([], { kind := .dir }), ([str "F4"], { kind := .dir }), ([str "F4", str "u"], { kind := .chr 0 }), ([str "F4", str "v"], { kind := .dir, redirect := some (str "u") })]

/-- **C114 refuted** for a move of a directory that holds the storage (such as the home directory): accept moves the storage along and then does not find it: it fails, although everything it was to do is
possible, the sandbox is no longer in the storage directory, and its storage still has all the changes. -/
theorem C114_refuted_move : Spec.StoredIn [str "u", str "s"] exMovedHome ∧ Spec.OneDevice exMovedHome.upper ∧
    (selected exViewEnv exMovedHome).map (fun e => (e.op, e.dest)) = [(.rename, [str "v"])] ∧ (accept exViewEnv exMovedHome).error = none ∧
    (acceptOne [str "u", str "s"] exViewEnv exMovedHome).2 = some (.os .ENOENT) ∧ (acceptOne [str "u", str "s"] exViewEnv exMovedHome).1.get [str "u", str "s"] = none ∧
    ((acceptOne [str "u", str "s"] exViewEnv exMovedHome).1.get [str "v", str "s", str "F4", str "v"]).isSome :=
  ⟨storedIn_of_check (by decide +kernel) (by decide +kernel) (by decide +kernel) (by decide +kernel),
    ⟨0, fun q n hn => (by decide +kernel : ∀ x ∈ exMovedHome.upper, x.2.dev = 0) (q, n) (FS.mem_of_get hn)⟩, by decide +kernel, by decide +kernel, by decide +kernel, by decide +kernel, by decide +kernel⟩

/-- A host with `/etc/x`; in the sandbox of a user: `mkdir d; echo 1 > d/x`; the storage is `/s`. -/
def exEtc : State := withStorage [([], { kind := .dir }), ([str "etc"], { kind := .dir }), ([str "etc", str "x"], { kind := .reg (str "precious") })] [str "s"]
  [([], { kind := .dir }), ([str "F4"], { kind := .dir }), ([str "F4", str "d"], { kind := .dir, opq := true }), ([str "F4", str "d", str "x"], { kind := .reg (str "1") })]

/-- **C114 refuted** for a reject beside a command in the sandbox: before reject removes `d/x` from the storage, the command moves `d` away and puts a link to `/etc` there.  In the sandbox that link leads to
the `/etc` of the sandbox; in the storage it leads to that of the host: reject, running as root, deletes `/etc/x` of the host and reports success. -/
theorem C114_refuted_link :
    let ws : List Write := [⟨[str "s", str "F4", str "d2"], some { kind := .dir, opq := true }⟩, ⟨[str "s", str "F4", str "d2", str "x"], some { kind := .reg (str "1") }⟩,
      ⟨[str "s", str "F4", str "d", str "x"], none⟩, ⟨[str "s", str "F4", str "d"], none⟩, ⟨[str "s", str "F4", str "d"], some { kind := .lnk (str "/etc") }⟩]
    Spec.StoredIn [str "s"] exEtc ∧ (selected exOtherEnv exEtc).map (·.dest) = [[str "d", str "x"]] ∧ (∀ w ∈ ws, [str "s", str "F4"] <+: w.path) ∧
    ∃ fs, RejectIn ((stableSort byStagedDescending (selected exOtherEnv exEtc)).map (Entry.at [str "s"])) none ws exEtc.lower fs none ∧
      (exEtc.lower.get [str "etc", str "x"]).isSome ∧ fs.get [str "etc", str "x"] = none ∧ (fs.get [str "s", str "F4", str "d2", str "x"]).isSome := by
  intro ws
  refine ⟨storedIn_of_check (by decide +kernel) (by decide +kernel) (by decide +kernel) (by decide +kernel), by decide +kernel, ?_,
    (rejectLoop ((stableSort byStagedDescending (selected exOtherEnv exEtc)).map (Entry.at [str "s"])) none (ws.foldl write exEtc.lower)).1, ?_, by decide +kernel, by decide +kernel, by decide +kernel⟩
  · intro w hw
    exact List.isPrefixOf_iff_prefix.1 ((by decide +kernel : ∀ w ∈ ws, [str "s", str "F4"].isPrefixOf w.path = true) w hw)
  · exact .other (by decide +kernel) (.other (by decide +kernel) (.other (by decide +kernel) (.other (by decide +kernel) (.other (by decide +kernel) (rejectIn_alone.2 (Prod.ext_iff.2 ⟨rfl, by decide +kernel⟩))))))

end SB
