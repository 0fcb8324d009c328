import Verif.Lib.Bridge
import Verif.Lib.Clean
import Verif.Lib.Source

/-! The removal pass of accept succeeds on closed sets of removals (proof machinery). -/

namespace SB

open scoped List

namespace FS

/-- A successful walk over names without links on the way has passed directories only. -/
theorem walk_ok_chain (fs : FS) (ol) (todo : Path) : ∀ (cur c : Path), NormalPath todo →
    (∀ r, Below r todo → r ≠ [] → ∀ n, fs.get (cur ++ r) = some n → n.isLnk = false) → fs.walk ol cur todo = .ok c →
    (∀ r, Below r todo → fs.isDirAt (cur ++ r) = true) ∧ (todo ≠ [] → ∃ n, fs.get (cur ++ todo) = some n) := by
  induction todo with
  | nil => intro cur c _ _ _; exact ⟨fun r hr => by obtain ⟨x, hx, h⟩ := hr; simp at h; exact absurd h.2 hx, fun h => absurd rfl h⟩
  | cons x rest ih =>
    intro cur c hN hl h
    have hx : x ≠ ['.', '.'] := (hN x (by simp)).2.2.2
    unfold FS.walk at h
    cases hc : fs.get cur with
    | none => rw [hc] at h; simp at h
    | some d =>
      rw [hc] at h
      simp only at h
      by_cases hd : d.isDir = true
      · rw [if_pos hd, if_neg hx] at h
        have hcur : fs.isDirAt cur = true := FS.isDirAt_iff.2 ⟨d, hc, hd⟩
        cases hm : fs.get (cur ++ [x]) with
        | none => rw [hm] at h; simp at h
        | some m =>
          rw [hm] at h
          simp only at h
          by_cases hr : rest = []
          · subst hr
            refine ⟨fun r hr => ?_, fun _ => ⟨m, hm⟩⟩
            obtain ⟨y, hy, he⟩ := hr
            cases r with
            | nil => simpa using hcur
            | cons a b =>
              simp at he
              exact absurd he.2.2 hy
          · have hml : m.isLnk = false := hl [x] ⟨rest, hr, rfl⟩ (by simp) m hm
            have h' : fs.walk ol (cur ++ [x]) rest = .ok c := by
              cases hk : m.kind with
              | lnk t => simp [Node.isLnk, Kind.isLnk, hk] at hml
              | _ => rw [hk] at h; exact h
            obtain ⟨i1, i2⟩ := ih (cur ++ [x]) c (fun n hn => hN n (by simp [hn])) (fun r hr hr0 n hn =>
              hl (x :: r) (by obtain ⟨y, hy, he⟩ := hr; exact ⟨y, hy, by rw [he]; rfl⟩) (by simp) n (by simpa using hn)) h'
            refine ⟨fun r hr => ?_, fun _ => ?_⟩
            · cases r with
              | nil => simpa using hcur
              | cons a b =>
                obtain ⟨y, hy, he⟩ := hr
                simp at he
                obtain ⟨rfl, he⟩ := he
                have := i1 b ⟨y, hy, he⟩
                simpa using this
            · obtain ⟨n, hn⟩ := i2 hr
              exact ⟨n, by simpa using hn⟩
      · rw [if_neg hd] at h; simp at h

/-- A path with no link strictly above it that resolves exists, below directories. -/
theorem realpath_ok_get {fs : FS} {p c : Path} (hr : fs.isDirAt [] = true) (hN : NormalPath p) (hl : fs.NoLinkAbove p) (h : fs.realpath p = .ok c) :
    fs.Chain p ∧ ∃ n, fs.get p = some n := by
  unfold FS.realpath FS.resolveN at h
  obtain ⟨h1, h2⟩ := walk_ok_chain fs _ p [] c hN (fun r hr _ n hn => hl r hr n (by simpa using hn)) h
  refine ⟨fun q hq => by simpa using h1 q hq, ?_⟩
  by_cases hp : p = []
  · subst hp
    obtain ⟨n, hn, _⟩ := FS.isDirAt_iff.1 hr
    exact ⟨n, hn⟩
  · simpa using h2 hp

theorem NoLinkAbove.of_prefix {fs : FS} {p q : Path} (h : fs.NoLinkAbove q) (hp : p <+: q) : fs.NoLinkAbove p :=
  fun y hy n hn => h y (below_of_below_prefix hy hp) n hn

theorem realpath_nolink {fs : FS} {p c : Path} (hN : NormalPath p) (hl : ∀ r, r <+: p → ∀ n, fs.get r = some n → n.isLnk = false) (h : fs.realpath p = .ok c) :
    c = p := by
  unfold FS.realpath FS.resolveN at h
  simpa using walk_nolink fs _ p [] c hN (fun r hr _ n hn => hl r hr n (by simpa using hn)) h

end FS

theorem noLinkAbove_of_ftype {fs : FS} {p : Path} (h : ∀ y, Below y p → ∀ n, fs.get y = some n → Spec.ftype n.kind ≠ .symlink) : fs.NoLinkAbove p := by
  intro y hy n hn
  have := h y hy n hn
  unfold Node.isLnk
  cases hk : n.kind <;> simp_all [Spec.ftype, Kind.isLnk]

theorem sourceLoop_exists {st : State} {m : Name} {mp : Path} {l : List Name} : ∀ {comps sp : Path}, sourceLoop st m mp l comps = some sp →
    st.lower.pexists sp = true := by
  have hif : ∀ {p sp : Path}, ifExists st.lower p = some sp → st.lower.pexists sp = true := by
    intro p sp h
    unfold ifExists at h
    split at h
    · cases h; assumption
    · cases h
  induction l with
  | nil => intro comps sp h; exact hif h
  | cons x r ih =>
    intro comps sp h
    unfold sourceLoop at h
    split at h
    · exact hif h
    · split at h
      · split at h <;> exact hif h
      · exact ih h

theorem sourcePath_exists {st : State} {m : Name} {mp sub sp : Path} (h : sourcePath st m mp sub = some sp) : st.lower.pexists sp = true :=
  sourceLoop_exists h

/-- The source of a removal is what is at its path on the host. -/
theorem remove_source {env : Env} {st : State} (hw : st.lower.WF) {e : Entry} (he : e ∈ changes env st) (ho : e.op = .remove)
    (hN : NormalPath e.dest) (hl : st.lower.NoLinkAbove e.dest) :
    ∃ n, e.source = some ⟨e.dest, n⟩ ∧ st.lower.get e.dest = some n := by
  obtain ⟨ue, hue, h | h⟩ := mem_changes.1 he
  · obtain ⟨sp, hsp, _, _, _, h, _⟩ := mem_removesOf h
    have key : ∀ q, NormalPath q → st.lower.NoLinkAbove q → (st.lower.Chain q ∧ ∃ n, st.lower.get q = some n) →
        ∃ n, details st.lower q = some ⟨q, n⟩ ∧ st.lower.get q = some n := by
      rintro q hN hl ⟨hch, n, hn⟩
      refine ⟨n, ?_, hn⟩
      unfold details
      rw [FS.lstat_chain hN hch, hn]
    rcases h with ⟨hd, hmem, hsrc, _⟩ | ⟨hd, hdest, hsrc, _⟩
    · rw [hsrc]
      refine key _ hN hl ?_
      unfold FS.walkDir at hmem
      cases hr : st.lower.realpath sp with
      | error x => rw [hr] at hmem; simp at hmem
      | ok c =>
        rw [hr] at hmem
        simp only [List.mem_filterMap] at hmem
        obtain ⟨⟨k, n⟩, hk, hif⟩ := hmem
        simp only [List.isPrefixOf_iff_prefix, Option.ite_none_right_eq_some, Option.some.injEq] at hif
        obtain ⟨hck, hif⟩ := hif
        have hsd : sp <+: e.dest := by rw [← hif]; exact List.prefix_append _ _
        by_cases hse : sp = e.dest
        · rw [← hse] at hN hl ⊢
          exact FS.realpath_ok_get hw.root hN hl hr
        · have hsb : Below sp e.dest := below_iff.2 ⟨hsd, hse⟩
          have hc : c = sp := FS.realpath_nolink (hN.of_prefix hsd) (fun r hr n hn =>
            hl r (below_of_prefix_below hr hsb) n hn) hr
          subst hc
          have : e.dest = k := by
            rw [← hif]
            exact List.prefix_iff_eq_append.1 hck
          rw [this]
          have hg := FS.get_of_mem hw.nodup hk
          exact ⟨hw.chain hg, n, hg⟩
    · have hex : ue.sourceDetails = details st.lower sp := by
        obtain ⟨m, mp, sub, _, hu⟩ := mem_upperEntries hue
        rw [hu.details, hsp]; rfl
      rw [hsrc, hex, ← hdest]
      refine key _ hN hl ?_
      have hp : st.lower.pexists sp = true := by
        obtain ⟨m, mp, sub, _, hu⟩ := mem_upperEntries hue
        exact sourcePath_exists (hu.source ▸ hsp)
      rw [hdest]
      unfold FS.pexists FS.stat at hp
      rw [← hdest] at hp ⊢
      cases hr : st.lower.realpath e.dest with
      | error x => rw [hr] at hp; simp at hp
      | ok c => exact FS.realpath_ok_get hw.root hN hl hr
  · obtain ⟨_, _, _, _, _, h⟩ := mem_setsOf h
    rw [ho] at h
    simp at h

/-- The removal pass, on entries sorted children first, removes everything if the set is closed below. -/
theorem removes_run : ∀ (l : List Entry) (st : State), st.lower.WF →
    (∀ e ∈ l, e.op = .remove ∧ ∃ n, e.source = some ⟨e.dest, n⟩ ∧ st.lower.get e.dest = some n ∧ n.supported = true ∧ e.dest ≠ [] ∧
      (n.isDir = true → ∀ m, st.lower.get e.dest.dropLast = some m → m.dev = n.dev)) →
    l.Pairwise (fun e e' => e'.dest ≤ e.dest ∧ e.dest ≠ e'.dest) →
    (∀ e ∈ l, ∀ q ∈ st.lower.keys, e.dest <+: q → ∃ e' ∈ l, e'.dest = q) →
    (run (removeOps l) st).2 = none := by
  intro l
  induction l with
  | nil => intro st _ _ _ _; rfl
  | cons e r ih =>
    intro st hw hl hp hc
    obtain ⟨ho, n, hs, hg, hk, hne, hdev⟩ := hl e (by simp)
    have hp' := List.pairwise_cons.1 hp
    -- nothing is below the first path
    have hnb : ∀ q, Below e.dest q → st.lower.get q = none := by
      intro q hq
      cases hgq : st.lower.get q with
      | none => rfl
      | some m =>
        obtain ⟨e', he', rfl⟩ := hc e (by simp) q (FS.mem_keys.2 ⟨m, hgq⟩) hq.prefix
        rcases List.mem_cons.1 he' with rfl | he'
        · exact absurd hq (not_below_self _)
        · exact absurd (path_lt_of_below hq) (not_lt.2 (hp'.1 e' he').1)
    have hops : removeOps (e :: r) = (if n.isReg || n.isLnk then [.rm e.dest] else [.rmdir e.dest]) ++ removeOps r := by
      unfold removeOps
      rw [List.flatMap_cons, ho, hs]
    have hex : (if n.isReg || n.isLnk then [Op.rm e.dest] else [.rmdir e.dest]) = [if n.isReg || n.isLnk then Op.rm e.dest else .rmdir e.dest] := by split <;> rfl
    have hstep : exec (if n.isReg || n.isLnk then Op.rm e.dest else .rmdir e.dest) st = ({ st with lower := st.lower.del e.dest }, none) := by
      by_cases hd : n.isDir = true
      · have : (n.isReg || n.isLnk) = false := by
          unfold Node.isDir at hd; unfold Node.isReg Node.isLnk; simp at hd; rw [hd]; rfl
        rw [this]
        simp only [Bool.false_eq_true, if_false, exec]
        rw [hw.rmdir_eq hg hd hne (hw.mountPoint_false hg hne (hdev hd)) hnb]; rfl
      · have : (n.isReg || n.isLnk) = true := by
          unfold Node.supported at hk; simp [hd] at hk ⊢; exact hk
        rw [this]
        simp only [if_true, exec]
        rw [hw.unlink_eq hg (by simpa using hd)]; rfl
    rw [hops, hex, List.singleton_append]
    unfold run
    rw [hstep]
    have hget : ∀ q, q ≠ e.dest → (st.lower.del e.dest).get q = st.lower.get q := by
      intro q hq
      rw [FS.get_del, if_neg (Ne.symm hq)]
    refine ih _ (hw.del hne hnb) ?_ hp'.2 ?_
    · intro e' he'
      obtain ⟨ho', n', hs', hg', hk', hne', hdev'⟩ := hl e' (by simp [he'])
      have h1 := hp'.1 e' he'
      refine ⟨ho', n', hs', ?_, hk', hne', ?_⟩
      · simp only; rw [hget _ (Ne.symm h1.2), hg']
      · intro hd m hm
        refine hdev' hd m ?_
        simp only at hm
        rw [FS.get_del] at hm
        split at hm
        · cases hm
        · exact hm
    · intro e' he' q hq hpre
      obtain ⟨m, hm⟩ := FS.mem_keys.1 hq
      simp only at hm
      rw [FS.get_del] at hm
      split at hm
      · cases hm
      · next hqe =>
        obtain ⟨e'', he'', rfl⟩ := hc e' (by simp [he']) q (FS.mem_keys.2 ⟨m, hm⟩) hpre
        rcases List.mem_cons.1 he'' with rfl | he''
        · exact absurd rfl hqe
        · exact ⟨e'', he'', rfl⟩

end SB
