import Verif.Lib.PhaseAOk
import Verif.Props.Feasible
import Verif.Props.Renames
import Verif.Props.ViewMoved
import Verif.Props.Everything

/-!
# C85: when accept succeeds, with renamed directories
-/

namespace SB

open scoped List

/-- What will be at `p ++ y` when it is the turn of the changes in `p`, if no change has been made at that path itself: what the innermost rename covering `p` has brought
from its source, or, if there is none, what is there on the host; without what has been removed or renamed away. -/
inductive Spec.Arrives (host : FS) (sel : List Entry) (p y : Path) (n : Node) : Prop where
  | moved (s d r : Path) : Spec.Renames sel s d → p = d ++ r → (∀ s' d', Spec.Renames sel s' d' → d' <+: p → d' <+: d) →
      host.get (s ++ r ++ y) = some n → ¬ Spec.Removes sel (s ++ r ++ y) →
      (∀ s' d', Spec.Renames sel s' d' → s' <+: s ++ r ++ y → s' <+: s) → Spec.Arrives host sel p y n
  | kept : (∀ s d, Spec.Renames sel s d → ¬ d <+: p) → host.get (p ++ y) = some n → ¬ Spec.Removes sel (p ++ y) →
      (∀ s d, Spec.Renames sel s d → ¬ s <+: p ++ y) → Spec.Arrives host sel p y n

/-- The selected changes, renames included, can be carried out on this host:
* none of them is reported as an error;
* with every removed directory everything below it is removed too, only files, directories and links are removed, no removed directory is a mount point, nothing is removed twice;
* a renamed path is renamed once and not removed; neither it nor what is in its new place is a symbolic link;
* if anything is renamed: the current directory exists, is not removed and not in a renamed directory, and everything renamed, with all its content, its destination and
  the current directory are on one mount;
* everything created, modified or renamed goes into a directory: one that is created or modified by the selection, or one that is there (`Spec.Arrives`);
* what is already in the place of something created or modified is a directory exactly if the new one is; a renamed path goes to a free place. -/
structure Spec.FeasibleMoves (env : Env) (host : FS) (sel : List Entry) : Prop where
  ops : ∀ e ∈ sel, ∀ x, e.op ≠ .error x
  closed : ∀ q q', Spec.Removes sel q → q' ∈ host.keys → q <+: q' → Spec.Removes sel q'
  kinds : ∀ q n, Spec.Removes sel q → host.get q = some n → ftype n.kind = .file ∨ ftype n.kind = .directory ∨ ftype n.kind = .symlink
  mounts : ∀ q n m, Spec.Removes sel q → host.get q = some n → ftype n.kind = .directory → host.get q.dropLast = some m → m.dev = n.dev
  once : sel.Pairwise (fun e e' => e.op = .remove → e'.op = .remove → e.dest ≠ e'.dest)
  sources : ∀ s d d', Spec.Renames sel s d → Spec.Renames sel s d' → d = d'
  stays : ∀ s d, Spec.Renames sel s d → ¬ Spec.Removes sel s
  links : ∀ s d n, Spec.Renames sel s d → (host.get s = some n ∨ host.get d = some n) → ftype n.kind ≠ .symlink
  cwd : ∀ s d, Spec.Renames sel s d → (∃ n, host.get env.cwd = some n ∧ ftype n.kind = .directory) ∧ ¬ Spec.Removes sel env.cwd ∧ ¬ s <+: env.cwd
  mount : (∃ s d, Spec.Renames sel s d) → ∃ M, Spec.OnMount host M (fun p => p = env.cwd ∨ ∃ s d, Spec.Renames sel s d ∧ (s <+: p ∨ p = d)) ∧
    ∀ s d, Spec.Renames sel s d → s ≠ M ∧ d ≠ M
  parent : ∀ e ∈ sel, Spec.IsSet e ∨ e.op = .rename →
    (∃ e' ∈ sel, Spec.IsSet e' ∧ e'.dest = e.dest.dropLast ∧ ∃ s, e'.staged = some s ∧ ftype s.node.kind = .directory) ∨
    ((∃ n, Spec.Arrives host sel e.dest.dropLast [] n ∧ ftype n.kind = .directory) ∧ ∀ e' ∈ sel, Spec.IsSet e' → e'.dest ≠ e.dest.dropLast)
  place : ∀ e ∈ sel, Spec.IsSet e → ∀ s x k, e.staged = some s → e.dest = e.dest.dropLast ++ [x] → Spec.Arrives host sel e.dest.dropLast [x] k →
    (ftype k.kind = .directory ↔ ftype s.node.kind = .directory)
  free : ∀ e ∈ sel, e.op = .rename → ∀ x k, e.dest = e.dest.dropLast ++ [x] → ¬ Spec.Arrives host sel e.dest.dropLast [x] k

/-- The last of the longest destinations. -/
theorem exists_max_length : ∀ (l : List Entry), l ≠ [] → ∃ e ∈ l, ∀ e' ∈ l, e'.dest.length ≤ e.dest.length := by
  intro l
  induction l with
  | nil => intro h; exact absurd rfl h
  | cons a r ih =>
    intro _
    by_cases hr : r = []
    · subst hr; exact ⟨a, by simp, by simp⟩
    · obtain ⟨e, he, hmax⟩ := ih hr
      by_cases hle : a.dest.length ≤ e.dest.length
      · exact ⟨e, by simp [he], fun e' he' => by
          rcases List.mem_cons.1 he' with rfl | he'
          · exact hle
          · exact hmax e' he'⟩
      · exact ⟨a, by simp, fun e' he' => by
          rcases List.mem_cons.1 he' with rfl | he'
          · exact Nat.le_refl _
          · exact (hmax e' he').trans (by omega)⟩

theorem eq_or_ne_of_pairwise {α : Type} {R : α → α → Prop} {l : List α} (h : l.Pairwise R) {a b : α} (ha : a ∈ l) (hb : b ∈ l) : a = b ∨ R a b ∨ R b a := by
  obtain ⟨i, hi, hai⟩ := List.getElem_of_mem ha
  obtain ⟨k, hk, hbk⟩ := List.getElem_of_mem hb
  rcases Nat.lt_trichotomy i k with hik | hik | hik
  · have := List.pairwise_iff_getElem.1 h i k hi hk hik
    rw [hai, hbk] at this; exact Or.inr (Or.inl this)
  · subst hik; exact Or.inl (hai.symm.trans hbk)
  · have := List.pairwise_iff_getElem.1 h k i hk hi hik
    rw [hai, hbk] at this; exact Or.inr (Or.inr this)

section
variable {env : Env} {st : State}

theorem rename_fact (ho : Spec.Ordinary env st) {e : Entry} (he : e ∈ selected env st) (hr : e.op = .rename) :
    ∃ s : Details, e.source = some s ∧ Spec.Renames (selected env st) s.path e.dest ∧ st.lower.get s.path = some s.node := by
  obtain ⟨s, hs⟩ := changes_rename_source (mem_selected he) hr
  refine ⟨s, hs, ⟨e, he, hr, rfl, s, hs, rfl⟩, ?_⟩
  have h1 := rename_source (mem_selected he) hr hs
  obtain ⟨hN, hl⟩ := ho.plain.source e he s hs
  unfold FS.lstat at h1
  cases hc : st.lower.canon s.path with
  | error x => rw [hc] at h1; cases h1
  | ok c =>
    rw [hc] at h1
    obtain ⟨rfl, hch⟩ := FS.canon_ok_chain ho.wf hN (noLinkAbove_of_ftype hl) hc
    simp only at h1
    cases hg : st.lower.get s.path with
    | none => rw [hg] at h1; cases h1
    | some n => rw [hg] at h1; cases h1; rfl

theorem feasibleMoves_ok (ho : Spec.Ordinary env st) (hu : st.upper.WF) (hd : Spec.OneDevice st.upper) (hf : Spec.FeasibleMoves env st.lower (selected env st)) :
    (accept env st).error = none := by
  by_cases hne : selected env st = []
  · have hne' : matching env.glob env.cwd env.patterns (changes env st) = [] := hne
    simp [accept, hne']
  have hR := ho.ready
  have hg := hR.good
  -- removals of an order of the selection
  have hF : ∀ {l : List Entry}, (∀ e ∈ l, From (selected env st) e) → ∀ e ∈ l, e.op = .remove → ∃ n, e.source = some ⟨e.dest, n⟩ ∧
      st.lower.get e.dest = some n ∧ n.supported = true ∧ e.dest ≠ [] ∧ (n.isDir = true → ∀ m, st.lower.get e.dest.dropLast = some m → m.dev = n.dev) := by
    intro l hl e he hop
    obtain ⟨e0, h0, hcore⟩ := hl e he
    obtain ⟨g1, g2, g3, g4⟩ := core_op hcore
    rw [g1] at hop
    obtain ⟨n, h1, h2, h3⟩ := remove_entry ho h0 hop
    have hRm : Spec.Removes (selected env st) e0.dest := ⟨e0, h0, hop, _, h1, rfl⟩
    rw [g2, g3]
    exact ⟨n, h1, h2, supported_of_ftype (hf.kinds _ n hRm h2), h3, fun hd m hm => hf.mounts _ n m hRm h2 (ftype_dir_of hd) hm⟩
  -- renames of an order of the selection
  have hFr : ∀ {l : List Entry}, (∀ e ∈ l, From (selected env st) e) → ∀ e ∈ l, e.op = .rename → ∃ e0 ∈ selected env st, e.dest = e0.dest ∧
      ∃ s : Details, e0.source = some s ∧ e.source = some s ∧ Spec.Renames (selected env st) s.path e.dest ∧ st.lower.get s.path = some s.node := by
    intro l hl e he hop
    obtain ⟨e0, h0, hcore⟩ := hl e he
    obtain ⟨g1, g2, g3, g4⟩ := core_op hcore
    obtain ⟨s, h1, h2, h3⟩ := rename_fact ho h0 (g1 ▸ hop)
    exact ⟨e0, h0, g2, s, h1, g3.trans h1, by rw [g2]; exact h2, h3⟩
  -- temporary names are new
  have hnew : ∀ {s d : Path} (j : Nat), Spec.Renames (selected env st) s d → Spec.NewName env st.lower (selected env st) (Spec.renName s d (env.uuidR j)) := by
    rintro s d j ⟨e, he, _, rfl, x, hx, rfl⟩
    exact ho.fresh.ren j e he x hx
  have hxs : ∀ {s d s' d' : Path} (j : Nat), Spec.Renames (selected env st) s d → Spec.Renames (selected env st) s' d' →
      Spec.renName s d (env.uuidR j) ∉ s' ∧ Spec.renName s d (env.uuidR j) ∉ d' := by
    rintro s d s' d' j h ⟨e', he', _, rfl, x', hx', rfl⟩
    exact ⟨(hnew j h).source e' he' x' hx', (hnew j h).dest e' he'⟩
  have hnt : ∀ {s d : Path} (j : Nat) q, renameTmp env.cwd s d (env.uuidR j) <+: q → Spec.renName s d (env.uuidR j) ∈ q := by
    intro s d j q hq
    exact hq.subset (by rw [renameTmp_eq]; simp)
  have hsrcGet : ∀ {s d : Path}, Spec.Renames (selected env st) s d → ∃ n, st.lower.get s = some n := by
    rintro s d ⟨e, he, hop, rfl, x, hx, rfl⟩
    obtain ⟨s, hs, _, hget⟩ := rename_fact ho he hop
    rw [hx] at hs; cases hs
    exact ⟨_, hget⟩
  -- nothing at or above something that stays is removed
  have hRemUp : ∀ {y q : Path} {n : Node}, y <+: q → st.lower.get q = some n → ¬ Spec.Removes (selected env st) q → ¬ Spec.Removes (selected env st) y :=
    fun hy hn hq hr => hq (hf.closed _ _ hr (FS.mem_keys.2 ⟨_, hn⟩) hy)
  -- checks
  have hpre : pretendCheck env st (selected env st) = none := by
    unfold pretendCheck
    have hF1 : ∀ e ∈ stableSort byReverseSource (selected env st), From (selected env st) e := From.sort (fun e he => From.of_mem he)
    have hF2 : ∀ e ∈ assignTmps env 0 (stableSort byReverseSource (stableSort byReverseSource (selected env st))), From (selected env st) e :=
      From.assign (From.sort hF1)
    have h1 : checkRemoves (stableSort byReverseSource (selected env st)) = none := by
      refine checkRemoves_none.2 (fun e he hop => ?_)
      obtain ⟨n, hs, _, hk, _⟩ := hF hF1 e he hop
      refine ⟨_, hs, ?_⟩
      unfold Node.supported at hk
      revert hk; cases n.isReg <;> cases n.isDir <;> cases n.isLnk <;> simp
    have h2 : checkRenames st.lower (assignTmps env 0 (stableSort byReverseSource (stableSort byReverseSource (selected env st)))) = none := by
      refine checkRenames_none.2 (fun e he h s t hs ht => ?_)
      obtain ⟨e0, h0, hd0, sd, hs0, hs', hren, hget⟩ := hFr hF2 e he h
      rw [hs] at hs'; cases hs'
      obtain ⟨j, hj⟩ := assignTmps_rename he h hs
      rw [ht] at hj; cases hj
      obtain ⟨M, ⟨m, hm, hMt, hMp⟩, hMne⟩ := hf.mount ⟨_, _, hren⟩
      have hmp : ∀ {p : Path}, NormalPath p → (∀ q, q <+: p → ∀ n, st.lower.get q = some n → n.isLnk = false) → M <+: p →
          (∀ q n, M <+: q → q <+: p → st.lower.get q = some n → n.dev = m.dev) → findMountPoint st.lower p = M :=
        fun hN hl hp hdv => FS.findMountPoint_eq ho.wf hN hl ⟨m, hm⟩ hMt hp hdv
      have ps := hMp s.path (Or.inr ⟨_, _, hren, Or.inl (List.prefix_refl _)⟩)
      have pd := hMp e.dest (Or.inr ⟨_, _, hren, Or.inr rfl⟩)
      have pc := hMp env.cwd (Or.inl rfl)
      have e1 : findMountPoint st.lower s.path = M := by
        obtain ⟨hN, hl⟩ := ho.plain.source e0 h0 s hs0
        refine hmp hN (fun q hq n hn => ?_) ps.1 ps.2
        by_cases heq : q = s.path
        · subst heq; exact isLnk_of_ftype (hf.links _ _ n hren (Or.inl hn))
        · exact isLnk_of_ftype (hl q (below_iff.2 ⟨hq, heq⟩) n hn)
      have e3 : findMountPoint st.lower e.dest = M := by
        obtain ⟨hN, _, hl⟩ := ho.plain.dest e0 h0
        rw [← hd0] at hN hl
        refine hmp hN (fun q hq n hn => ?_) pd.1 pd.2
        by_cases heq : q = e.dest
        · subst heq; exact isLnk_of_ftype (hf.links _ _ n hren (Or.inr hn))
        · exact isLnk_of_ftype (hl q (below_iff.2 ⟨hq, heq⟩) n hn)
      have e2 : findMountPoint st.lower (renameTmp env.cwd s.path e.dest (env.uuidR j)) = M := by
        have hin : ∀ q n, q <+: renameTmp env.cwd s.path e.dest (env.uuidR j) → st.lower.get q = some n → q <+: env.cwd := by
          intro q n hq hn
          rw [renameTmp_eq] at hq
          rcases prefix_concat_cases hq with hq | hq
          · exact hq
          · rw [NewName_none (hnew j hren) (q := q) (by rw [hq]; simp)] at hn; cases hn
        refine hmp ?_ (fun q hq n hn => ?_) ?_ (fun q n hMq hq hn => pc.2 q n hMq (hin q n hq hn) hn)
        · rw [hd0]; exact normal_renTmp hg h0 hs0 j
        · exact isLnk_of_ftype (ho.plain.cwd.2 q (hin q n hq hn) n hn)
        · rw [renameTmp_eq]; exact pc.1.trans (List.prefix_append _ _)
      rw [e1, e2, e3]; exact ⟨rfl, rfl⟩
    have h3 := checkApply_none.2 (fun e he => by
      have hF3 := From.sort (le := byDestination) hF2
      obtain ⟨e0, h0, hcore⟩ := hF3 e he
      obtain ⟨g1, g2, g3, g4⟩ := core_op hcore
      refine ⟨(fun x h => hf.ops e0 h0 x (g1 ▸ h)), (fun t h => ?_)⟩
      obtain ⟨s, hs, hsup, _⟩ := hR.staged e0 h0 ⟨t, g1 ▸ h⟩
      refine ⟨s, g4.trans hs, ?_⟩
      unfold Node.supported at hsup
      revert hsup; cases s.node.isReg <;> cases s.node.isDir <;> cases s.node.isLnk <;> simp)
    simp only [h1, h2]
    exact h3
  -- the removal pass
  have hRun : (run (removeOps (realOrders env (selected env st)).1) st).2 = none := by
    rw [← removeOps_filter]
    have hmem : ∀ {e : Entry}, e ∈ (realOrders env (selected env st)).1.filter (fun e => e.op = .remove) → e ∈ (realOrders env (selected env st)).1 ∧ e.op = .remove := by
      intro e he
      obtain ⟨h1, h2⟩ := List.mem_filter.1 he
      exact ⟨h1, by simpa using h2⟩
    refine removes_run _ st ho.wf (fun e he => ⟨(hmem he).2, hF from_c3 e (hmem he).1 (hmem he).2⟩) ?_ ?_
    · have h1 : (realOrders env (selected env st)).1.Pairwise (fun e e' => e.op = .remove → e'.op = .remove → e.dest ≠ e'.dest) := by
        have hc : ((selected env st).map Entry.core).Pairwise (fun e e' => e.op = .remove → e'.op = .remove → e.dest ≠ e'.dest) := by
          rw [List.pairwise_map]; exact hf.once
        have := (core_c3 env (selected env st)).symm.pairwise hc (fun {x y} h a b e => h b a e.symm)
        rw [List.pairwise_map] at this
        exact this
      refine List.Pairwise.imp_of_mem ?_ (((desc_c3 env (selected env st)).and h1).filter (fun e => e.op = .remove))
      intro a b ha hb h
      obtain ⟨ha1, ha2⟩ := hmem ha
      obtain ⟨hb1, hb2⟩ := hmem hb
      obtain ⟨n, hs, _⟩ := hF from_c3 a ha1 ha2
      obtain ⟨n', hs', _⟩ := hF from_c3 b hb1 hb2
      have h2 := h.1
      unfold byReverseSource at h2
      rw [hs, hs'] at h2
      exact ⟨by simpa using h2, h.2 ha2 hb2⟩
    · intro e he q hq hpre
      obtain ⟨he1, he2⟩ := hmem he
      obtain ⟨e0, h0, hcore⟩ := from_c3 e he1
      obtain ⟨g1, g2, g3, g4⟩ := core_op hcore
      rw [g1] at he2
      obtain ⟨n, h1, _⟩ := remove_entry ho h0 he2
      obtain ⟨e1, h1, hop1, s, hs, rfl⟩ := hf.closed e0.dest q ⟨e0, h0, he2, _, h1, rfl⟩ hq (by rw [← g2]; exact hpre)
      obtain ⟨e', he', hcore'⟩ := mem_of_From (core_c3 env (selected env st)) h1
      obtain ⟨k1, k2, k3, k4⟩ := core_op hcore'
      obtain ⟨n1, hn1, _⟩ := remove_entry ho h1 hop1
      rw [hn1] at hs; cases hs
      exact ⟨e', List.mem_filter.2 ⟨he', by simp [k1, hop1]⟩, k2⟩
  obtain ⟨st1, h1⟩ : ∃ st1, run (removeOps (realOrders env (selected env st)).1) st = (st1, none) := ⟨(run (removeOps (realOrders env (selected env st)).1) st).1, by rw [← hRun]⟩
  have hu1 := upper_R h1
  have hw1 : st1.lower.WF := (ok_R hg h1).wf
  have hget1 : ∀ q, (Removed (selected env st) q → st1.lower.get q = none) ∧ (¬ Removed (selected env st) q → st1.lower.get q = st.lower.get q) := by
    intro q
    have e1 := phaseR_run (plain_R hg) (fun _ h => h) (fun op hop => by
      obtain ⟨e, _, s, _, _, h⟩ := opFrom_remove hop; exact ⟨_, h⟩) hg.wf (fun q h => .init h) h1 q
    rw [gone_removeOps] at e1
    exact e1
  -- the first rename pass
  have hpair1 : ∀ p ∈ movePairs (realOrders env (selected env st)).2.1, ∃ d j, Spec.Renames (selected env st) p.1 d ∧ p.2 = renameTmp env.cwd p.1 d (env.uuidR j) := by
    intro p hp
    obtain ⟨e, he, s, j, h1, h2, h3, h4⟩ := pairs_c4 hg hp
    exact ⟨e.dest, j, ⟨e, he, h1, rfl, s, h2, h3.symm⟩, by rw [h3]; exact h4⟩
  have hcw1 : ∀ {s d : Path}, Spec.Renames (selected env st) s d → ∀ y, y <+: env.cwd → st1.lower.get y = st.lower.get y ∧ st.lower.isDirAt y = true := by
    intro s d h y hy
    obtain ⟨⟨n, hn, hnd⟩, hnr, _⟩ := hf.cwd s d h
    refine ⟨(hget1 y).2 (hRemUp hy hn hnr), ?_⟩
    by_cases he : y = env.cwd
    · rw [he]; exact FS.isDirAt_iff.2 ⟨n, hn, isDir_of_ftype hnd⟩
    · exact ho.wf.ancestor hn (below_iff.2 ⟨hy, he⟩)
  have hM1 : Descends st1.lower (movePairs (realOrders env (selected env st)).2.1) := by
    have src : ∀ p ∈ movePairs (realOrders env (selected env st)).2.1, ∃ M m d n, Spec.Renames (selected env st) p.1 d ∧ Below M p.1 ∧ M <+: env.cwd ∧ st1.lower.get p.1 = some n ∧
        (∀ q k, M <+: q → (q <+: p.1 ∨ q <+: env.cwd) → st.lower.get q = some k → k.dev = m) := by
      intro p hp
      obtain ⟨d, j, h, _⟩ := hpair1 p hp
      obtain ⟨M, ⟨m, hm, hMt, hMp⟩, hMne⟩ := hf.mount ⟨_, _, h⟩
      obtain ⟨n, hn⟩ := hsrcGet h
      have ps := hMp p.1 (Or.inr ⟨_, _, h, Or.inl (List.prefix_refl _)⟩)
      have pc := hMp env.cwd (Or.inl rfl)
      refine ⟨M, m.dev, d, n, h, below_iff.2 ⟨ps.1, fun e => (hMne _ _ h).1 e.symm⟩, pc.1, by rw [(hget1 _).2 (hf.stays _ _ h)]; exact hn, ?_⟩
      rintro q k hMq (hq | hq) hk
      · exact ps.2 q k hMq hq hk
      · exact pc.2 q k hMq hq hk
    have hsub : ∀ {q : Path} {k : Node}, st1.lower.get q = some k → st.lower.get q = some k := by
      intro q k hk
      by_cases hr : Removed (selected env st) q
      · rw [(hget1 q).1 hr] at hk; cases hk
      · rw [(hget1 q).2 hr] at hk; exact hk
    refine ⟨fun p hp => ?_, fun p hp => ?_, fun p hp => ?_, fun p hp p' hp' => ?_, ?_⟩
    · obtain ⟨M, m, d, n, h, hb, hc, hn, hdv⟩ := src p hp
      have h0 : p.1 ≠ [] := by intro e; rw [e] at hb; exact hb.not_prefix List.nil_prefix
      refine ⟨h0, n, hn, fun _ => ?_⟩
      refine hw1.mountPoint_false hn h0 (fun y hy => ?_)
      rw [hdv _ n hb.prefix (Or.inl (List.prefix_refl _)) (hsub hn), hdv _ y (prefix_dropLast_of_below hb) (Or.inl (List.dropLast_prefix _)) (hsub hy)]
    · obtain ⟨d, j, h, h2⟩ := hpair1 p hp
      obtain ⟨e, he, _, hed, x, hx, hxp⟩ := id h
      refine ⟨?_, fun y hy => ?_, ?_⟩
      · rw [h2, ← hxp, ← hed]; exact normal_renTmp hg he hx j
      · rw [h2] at hy
        obtain ⟨k1, k2⟩ := hcw1 h y (below_renTmp hy)
        rw [FS.isDirAt_congr k1]; exact k2
      · have : st.lower.get p.2 = none := NewName_none (hnew j h) (hnt j _ (by rw [h2]))
        cases hk : st1.lower.get p.2 with
        | none => rfl
        | some k => rw [hsub hk] at this; cases this
    · obtain ⟨M, m, d, n, h, hb, hc, hn, hdv⟩ := src p hp
      obtain ⟨_, j, _, h2⟩ := hpair1 p hp
      have h0 : p.1 ≠ [] := by intro e; rw [e] at hb; exact hb.not_prefix List.nil_prefix
      have hd1 : st1.lower.devOf p.1.dropLast = m := by
        obtain ⟨k, hk, _⟩ := FS.isDirAt_iff.1 (hw1.chain hn _ (dropLast_below h0))
        unfold FS.devOf; rw [hk]
        exact hdv _ k (prefix_dropLast_of_below hb) (Or.inl (List.dropLast_prefix _)) (hsub hk)
      have hd2 : st1.lower.devOf p.2.dropLast = m := by
        rw [h2, renameTmp_eq, List.dropLast_concat]
        obtain ⟨k1, k2⟩ := hcw1 h env.cwd (List.prefix_refl _)
        obtain ⟨k, hk, _⟩ := FS.isDirAt_iff.1 k2
        unfold FS.devOf; rw [k1, hk]
        exact hdv _ k hc (Or.inr (List.prefix_refl _)) hk
      rw [hd1, hd2]
    · obtain ⟨d, j, h, _⟩ := hpair1 p hp
      obtain ⟨d', j', h', h2'⟩ := hpair1 p' hp'
      refine ⟨fun hpre => ?_, fun hpre => ?_⟩
      · rw [h2', renameTmp_eq] at hpre
        rcases prefix_concat_cases hpre with hpre | hpre
        · exact (hf.cwd _ _ h).2.2 hpre
        · exact (hxs j' h' h).1 (by rw [hpre]; simp)
      · rw [h2'] at hpre
        exact (hxs j' h' h).1 (hnt j' _ hpre)
    · have hdd : (realOrders env (selected env st)).2.1.Pairwise (fun e e' => e.op = .rename → e'.op = .rename → e.dest ≠ e'.dest) := by
        have hc : ((selected env st).map Entry.core).Pairwise (fun e e' => e.op = .rename → e'.op = .rename → e.dest ≠ e'.dest) := by
          rw [List.pairwise_map]
          exact ho.distinct.imp (fun h a b => h (Or.inr a) (Or.inr b))
        have := (core_c4 env (selected env st)).symm.pairwise hc (fun {x y} h a b e => h b a e.symm)
        rw [List.pairwise_map] at this
        exact this
      have hsd : (movePairs (realOrders env (selected env st)).2.1).Pairwise (fun p p' => p.1 ≠ p'.1) := by
        refine movePairs_pairwise ?_
        refine hdd.imp_of_mem ?_
        intro e e' he he' hx s t s' t' h1 h1' h2 h3 h2' h3' heq
        obtain ⟨_, _, _, sd, _, hs, hren, _⟩ := hFr from_c4 e he h1
        obtain ⟨_, _, _, sd', _, hs', hren', _⟩ := hFr from_c4 e' he' h1'
        rw [hs] at h2; cases h2
        rw [hs'] at h2'; cases h2'
        exact hx h1 h1' (hf.sources _ _ _ hren (by simp only at heq; rw [heq]; exact hren'))
      refine ((pairs_order hg).and hsd).imp_of_mem ?_
      intro p p' hp hp' hx
      refine ⟨fun h => ?_, fun h => ?_⟩
      · exact absurd (path_le_of_prefix h) (not_le_of_gt (lt_of_le_of_ne hx.1.1 (Ne.symm hx.2)))
      · refine hx.1.2 (h.eq_of_length ?_)
        rw [(pairs_len hg p hp).1, (pairs_len hg p' hp').1]
  have hRun2 : (run (premoveOps (realOrders env (selected env st)).2.1) st1).2 = none := by
    rw [premoveOps_eq]
    exact descends_run _ st1 hw1 hM1
  obtain ⟨st2, h2⟩ : ∃ st2, run (premoveOps (realOrders env (selected env st)).2.1) st1 = (st2, none) :=
    ⟨(run (premoveOps (realOrders env (selected env st)).2.1) st1).1, by rw [← hRun2]⟩
  have hu2 : st2.upper = st.upper := by
    have : ∀ op ∈ premoveOps (realOrders env (selected env st)).2.1, op.isClean = false := by
      rw [premoveOps_eq]
      intro op hop
      obtain ⟨p, _, rfl⟩ := List.mem_map.1 hop
      rfl
    have := run_upper this st1
    rw [h2] at this
    exact this.trans hu1
  obtain ⟨hA, hcw⟩ := afterRM_run hg h1 h2
  have hlk := hA.links (fun _ h => h)
  have hp := plain_A hg hlk
  have hi := ainv_start hR h1 h2
  obtain ⟨g1, hg1, hD⟩ := hA.done
  -- the host between the rename passes
  have hother : ∀ q, (∀ s d j, Spec.Renames (selected env st) s d → Spec.renName s d (env.uuidR j) ∉ q) → ∀ k, st2.lower.get q = some k ↔
      st.lower.get q = some k ∧ ¬ Spec.Removes (selected env st) q ∧ ∀ s d, Spec.Renames (selected env st) s d → ¬ s <+: q := by
    intro q hq k
    rw [hD.other q (fun p hp hpre => by
      obtain ⟨d, j, h, h2⟩ := hpair1 p hp
      exact hq _ _ j h (hnt j q (by rw [← h2]; exact hpre)))]
    split
    · next hx =>
      obtain ⟨p, hp, hpre⟩ := hx
      obtain ⟨d, j, h, _⟩ := hpair1 p hp
      simp only [reduceCtorEq, false_iff]
      exact fun h' => h'.2.2 _ _ h hpre
    · next hx =>
      constructor
      · intro hk
        have hr : ¬ Removed (selected env st) q := fun hr => by rw [(hg1 q).1 hr] at hk; cases hk
        refine ⟨by rw [← (hg1 q).2 hr]; exact hk, hr, fun s d h hpre => ?_⟩
        obtain ⟨_, _, _, _, _, t, _, hpm⟩ := ren_c5 hg h
        exact hx ⟨_, hpm, hpre⟩
      · rintro ⟨hk, hr, _⟩
        rw [(hg1 q).2 hr]; exact hk
  have hmoved : ∀ s d t, Spec.Renames (selected env st) s d → (s, t) ∈ movePairs (realOrders env (selected env st)).2.1 → ∀ r k, st2.lower.get (t ++ r) = some k ↔
      st.lower.get (s ++ r) = some k ∧ ¬ Spec.Removes (selected env st) (s ++ r) ∧ ∀ s' d', Spec.Renames (selected env st) s' d' → s' <+: s ++ r → s' <+: s := by
    intro s d t h hpm r k
    rw [hD.moved _ hpm r]
    simp only
    split
    · next hx =>
      obtain ⟨p, hp, hb, hpre⟩ := hx
      obtain ⟨d', j, h', _⟩ := hpair1 p hp
      simp only [reduceCtorEq, false_iff]
      exact fun hk => hb.not_prefix (hk.2.2 _ _ h' hpre)
    · next hx =>
      constructor
      · intro hk
        have hr : ¬ Removed (selected env st) (s ++ r) := fun hr => by rw [(hg1 _).1 hr] at hk; cases hk
        refine ⟨by rw [← (hg1 _).2 hr]; exact hk, hr, fun s' d' h' hpre => ?_⟩
        by_contra hns
        obtain ⟨_, _, _, _, _, t', _, hpm'⟩ := ren_c5 hg h'
        refine hx ⟨_, hpm', below_iff.2 ⟨?_, fun e => hns (by rw [e])⟩, hpre⟩
        rcases prefix_total hpre (List.prefix_append s r) with h | h
        · exact absurd h hns
        · exact h
      · rintro ⟨hk, hr, _⟩
        rw [(hg1 _).2 hr]; exact hk
  -- renames of the last pass
  have hren5 : ∀ e ∈ (realOrders env (selected env st)).2.2, e.op = .rename → ∃ s t, Spec.Renames (selected env st) s e.dest ∧ e.tmp = some t ∧
      (s, t) ∈ movePairs (realOrders env (selected env st)).2.1 := by
    intro e he hop
    obtain ⟨e0, h0, hd0, sd, _, hs, hren, _⟩ := hFr from_c5 e he hop
    obtain ⟨j, hj⟩ := c5_tmp he hop hs
    exact ⟨sd.path, _, hren, hj, movePairs_of (mem_stableSort.1 he) hop hs hj⟩
  have hfresh : ∀ e ∈ selected env st, ∀ q, q <+: e.dest → ∀ s d j, Spec.Renames (selected env st) s d → Spec.renName s d (env.uuidR j) ∉ q := by
    intro e he q hq s d j h hm
    exact (hnew j h).dest e he (hq.subset hm)
  -- the place of a path, and what is there
  have hloc : ∀ e0 ∈ selected env st, ∃ b, Loc (realOrders env (selected env st)).2.2 e0.dest.dropLast b ∧
      ∀ y, e0.dest.dropLast ++ y <+: e0.dest → ∀ k, st2.lower.get (b ++ y) = some k ↔ Spec.Arrives st.lower (selected env st) e0.dest.dropLast y k := by
    intro e0 h0
    by_cases hx : ∃ e ∈ (realOrders env (selected env st)).2.2, e.op = .rename ∧ e.dest <+: e0.dest.dropLast
    · -- the innermost one
      obtain ⟨e, he, hop, hpre, hmax⟩ : ∃ e ∈ (realOrders env (selected env st)).2.2, e.op = .rename ∧ e.dest <+: e0.dest.dropLast ∧
          ∀ e' ∈ (realOrders env (selected env st)).2.2, e'.op = .rename → e'.dest <+: e0.dest.dropLast → e'.dest <+: e.dest := by
        obtain ⟨e1, he1, ho1, hp1⟩ := hx
        have hl : ((realOrders env (selected env st)).2.2.filter (fun e => decide (e.op = .rename ∧ e.dest <+: e0.dest.dropLast))) ≠ [] := by
          intro h
          have : e1 ∈ ((realOrders env (selected env st)).2.2.filter (fun e => decide (e.op = .rename ∧ e.dest <+: e0.dest.dropLast))) :=
            List.mem_filter.2 ⟨he1, by simpa using ⟨ho1, hp1⟩⟩
          rw [h] at this; cases this
        obtain ⟨e, he, hmax⟩ := exists_max_length _ hl
        obtain ⟨he, hc⟩ := List.mem_filter.1 he
        obtain ⟨c1, c2⟩ : e.op = .rename ∧ e.dest <+: e0.dest.dropLast := by simpa using hc
        refine ⟨e, he, c1, c2, fun e' he' ho' hp' => ?_⟩
        have hle := hmax e' (List.mem_filter.2 ⟨he', by simpa using ⟨ho', hp'⟩⟩)
        rcases prefix_total hp' c2 with h | h
        · exact h
        · have := h.eq_of_length (le_antisymm h.length_le hle)
          rw [this]
      obtain ⟨s, t, hren, ht, hpm⟩ := hren5 e he hop
      obtain ⟨r, hr⟩ := hpre
      refine ⟨t ++ r, Or.inl ⟨e, he, hop, t, r, ht, hr.symm, rfl, hmax⟩, fun y hy k => ?_⟩
      rw [List.append_assoc, hmoved s e.dest t hren hpm (r ++ y) k]
      have hdeep : ∀ s' d', Spec.Renames (selected env st) s' d' → d' <+: e0.dest.dropLast → d' <+: e.dest := by
        intro s' d' h' hp'
        obtain ⟨e', he', ho', hd', _⟩ := ren_c5 hg h'
        exact hd' ▸ hmax e' he' ho' (by rw [hd']; exact hp')
      constructor
      · rintro ⟨k1, k2, k3⟩
        rw [← List.append_assoc] at k1 k2 k3
        exact .moved s e.dest r hren hr.symm hdeep k1 k2 k3
      · intro hF
        cases hF with
        | moved s1 d1 r1 hren1 hr1 hdeep1 k1 k2 k3 =>
          have hd : d1 = e.dest := by
            have a1 := hdeep1 _ _ hren (by rw [← hr]; exact List.prefix_append _ _)
            have a2 := hdeep _ _ hren1 (by rw [hr1]; exact List.prefix_append _ _)
            exact a2.eq_of_length (le_antisymm a2.length_le a1.length_le)
          subst hd
          have hrr : r1 = r := by
            rw [hr1] at hr
            exact (List.append_cancel_left hr).symm
          subst hrr
          have hss : s1 = s := by
            obtain ⟨e3, he3, ho3, hd3, x3, hx3, rfl⟩ := hren1
            obtain ⟨e4, he4, ho4, hd4, x4, hx4, rfl⟩ := hren
            rcases eq_or_ne_of_pairwise ho.distinct he3 he4 with rfl | h | h
            · rw [hx3] at hx4; cases hx4; rfl
            · exact absurd (hd3.trans hd4.symm) (h (Or.inr ho3) (Or.inr ho4))
            · exact absurd (hd4.trans hd3.symm) (h (Or.inr ho4) (Or.inr ho3))
          subst hss
          rw [List.append_assoc] at k1 k2 k3
          exact ⟨k1, k2, k3⟩
        | kept hno _ _ _ => exact absurd (by rw [← hr]; exact List.prefix_append _ _) (hno _ _ hren)
    · have hno : ∀ s d, Spec.Renames (selected env st) s d → ¬ d <+: e0.dest.dropLast := by
        intro s d h hpre
        obtain ⟨e', he', ho', hd', _⟩ := ren_c5 hg h
        exact hx ⟨e', he', ho', by rw [hd']; exact hpre⟩
      refine ⟨e0.dest.dropLast, Or.inr ⟨rfl, fun e he hop hpre => hx ⟨e, he, hop, hpre⟩⟩, fun y hy k => ?_⟩
      rw [hother _ (hfresh e0 h0 _ hy)]
      constructor
      · rintro ⟨k1, k2, k3⟩; exact .kept hno k1 k2 k3
      · intro hF
        cases hF with
        | moved s1 d1 r1 hren1 hr1 _ _ _ _ => exact absurd (by rw [hr1]; exact List.prefix_append _ _) (hno _ _ hren1)
        | kept _ k1 k2 k3 => exact ⟨k1, k2, k3⟩
  have hfits : FitsR (realOrders env (selected env st)).2.2 st2.lower := by
    intro e he hse
    obtain ⟨e0, h0, hcore⟩ := from_c5 e he
    obtain ⟨c1, c2, c3, c4⟩ := core_op hcore
    have hse0 : Spec.IsSet e0 ∨ e0.op = .rename := by unfold Spec.IsSet at *; rw [← c1]; exact hse
    obtain ⟨b, hb, hfound⟩ := hloc e0 h0
    rw [c2]
    refine ⟨b, hb, ?_, fun x hx k hk => ?_⟩
    · rcases hf.parent e0 h0 hse0 with ⟨e', he', hset', hd', s, hs, hsd⟩ | ⟨⟨n, hn, hnd⟩, hno⟩
      · left
        obtain ⟨e2, he2, hcore2⟩ := mem_of_From (core_c5 env (selected env st)) he'
        obtain ⟨k1, k2, k3, k4⟩ := core_op hcore2
        refine ⟨e2, he2, by unfold Spec.IsSet at *; rw [k1]; exact hset', k2.trans hd', fun s' hs' => ?_⟩
        rw [k4, hs] at hs'; cases hs'
        exact isDir_of_ftype hsd
      · right
        have := (hfound [] (by rw [List.append_nil]; exact List.dropLast_prefix _) n).2 hn
        rw [List.append_nil] at this
        refine ⟨FS.isDirAt_iff.2 ⟨n, this, isDir_of_ftype hnd⟩, fun e' he' hset' => ?_⟩
        obtain ⟨e2, he2, hset2, hd2, _⟩ := set_of_c5 he' hset'
        rw [← hd2]
        exact hno e2 he2 hset2
    · have hF2 := (hfound [x] (by rw [← hx]) k).1 hk
      refine ⟨fun hop => hf.free e0 h0 (c1 ▸ hop) x k hx hF2, fun s hs => ?_⟩
      rcases hse0 with hset | hren
      · have := hf.place e0 h0 hset s x k (c4 ▸ hs) hx hF2
        rw [← isDir_ftype, ← isDir_ftype] at this
        exact Bool.eq_iff_iff.2 this
      · exact absurd hF2 (hf.free e0 h0 hren x k hx)
  have hdevs : ∃ (M : Path) (D : Nat), (∃ e ∈ (realOrders env (selected env st)).2.2, e.op = .rename) → OnDev env.cwd M D (realOrders env (selected env st)).2.2 st2.lower := by
    by_cases hx : ∃ e ∈ (realOrders env (selected env st)).2.2, e.op = .rename
    · obtain ⟨e, he, hop⟩ := hx
      obtain ⟨s, t, hren, ht, hpm⟩ := hren5 e he hop
      obtain ⟨M, ⟨m, hm, hMt, hMp⟩, hMne⟩ := hf.mount ⟨_, _, hren⟩
      have pc := hMp env.cwd (Or.inl rfl)
      have hcwdn : ∀ q, q <+: env.cwd → ∀ s d j, Spec.Renames (selected env st) s d → Spec.renName s d (env.uuidR j) ∉ q :=
        fun q hq s d j h hm => (hnew j h).cwd (hq.subset hm)
      refine ⟨M, m.dev, fun _ => ⟨?_, pc.1, fun e' he' hop' => ?_, fun q n hn hK => ?_⟩⟩
      · obtain ⟨k1, k2⟩ := hcw1 hren M pc.1
        obtain ⟨n, hn, hnd⟩ := FS.isDirAt_iff.1 k2
        obtain ⟨⟨nc, hnc, _⟩, hnr, _⟩ := hf.cwd _ _ hren
        refine FS.isDirAt_iff.2 ⟨n, (hother M (hcwdn M pc.1) n).2 ⟨hn, hRemUp pc.1 hnc hnr, fun s' d' h' hpre => (hf.cwd _ _ h').2.2 (hpre.trans pc.1)⟩, hnd⟩
      · obtain ⟨s', t', hren', _, _⟩ := hren5 e' he' hop'
        exact below_iff.2 ⟨(hMp e'.dest (Or.inr ⟨_, _, hren', Or.inr rfl⟩)).1, fun h => (hMne _ _ hren').2 h.symm⟩
      · rcases hK with ⟨hMq, hq | ⟨e', he', hop', hq⟩⟩ | ⟨e', he', hop', t', ht', hq⟩
        · exact pc.2 q n hMq hq ((hother q (hcwdn q hq) n).1 hn).1
        · obtain ⟨s', t', hren', _, _⟩ := hren5 e' he' hop'
          obtain ⟨e0, h0, hcore⟩ := from_c5 e' he'
          have hd0 := (core_op hcore).2.1
          have := ((hother q (hfresh e0 h0 q (hd0 ▸ hq)) n).1 hn).1
          exact (hMp e'.dest (Or.inr ⟨_, _, hren', Or.inr rfl⟩)).2 q n hMq hq this
        · obtain ⟨s', t'', hren', ht'', hpm'⟩ := hren5 e' he' hop'
          rw [ht'] at ht''; cases ht''
          obtain ⟨r, rfl⟩ := hq
          have := ((hmoved s' e'.dest t' hren' hpm' r n).1 hn).1
          have pp := hMp (s' ++ r) (Or.inr ⟨_, _, hren', Or.inl (List.prefix_append _ _)⟩)
          exact pp.2 _ n pp.1 (List.prefix_refl _) this
    · exact ⟨[], 0, fun h => absurd h hx⟩
  obtain ⟨M, D, hdev⟩ := hdevs
  have hA2 : (run (applyOps env 0 (realOrders env (selected env st)).2.2) st2).2 = none :=
    phaseAR_ok hg hp (alist_c5 hR hu2) hi (ascending_c5 ho.distinct) (fun _ h => h) hfits hdev
  refine accept_of_run hu hd hne hpre (st1 := (run (applyOps env 0 (realOrders env (selected env st)).2.2) st2).1) ?_ ?_
  · show run (removeOps (realOrders env (selected env st)).1 ++ premoveOps (realOrders env (selected env st)).2.1 ++ applyOps env 0 (realOrders env (selected env st)).2.2) st = _
    rw [run_append, run_append, h1]
    simp only
    rw [h2]
    simp only
    rw [← hA2]
  · have hcl : ∀ op ∈ applyOps env 0 (realOrders env (selected env st)).2.2, op.isClean = false := by
      generalize (realOrders env (selected env st)).2.2 = l
      generalize 0 = i
      induction l generalizing i with
      | nil => intro op h; cases h
      | cons e r ih =>
        intro op h
        rw [applyOps_cons] at h
        rcases List.mem_append.1 h with h | h
        · exact blockOps_noClean env i e op h
        · exact ih _ op h
    have := run_upper hcl st2
    rw [this, hu2]

end

/-- **C85** with renamed directories: if the selected changes, renames included (swaps, chains, renames within renamed directories, changes inside them), can be carried out
(`Spec.FeasibleMoves`), accepting them succeeds, and then the host is what it would be after all of them at once (`Spec.Applied`).
Missing: the converse (a rename onto an empty directory or a file also succeeds); symbolic links in the way; storage spread over several file systems. -/
theorem C85_moves_partial (env : Env) (st : State) (ho : Spec.Ordinary env st) (hu : st.upper.WF) (hd : Spec.OneDevice st.upper)
    (hf : Spec.FeasibleMoves env st.lower (selected env st)) :
    (accept env st).error = none ∧ Spec.Applied (selected env st) st.lower (accept env st).state.lower :=
  ⟨feasibleMoves_ok ho hu hd hf, applied_accept ho (feasibleMoves_ok ho hu hd hf)⟩

/-! ### Non-vacuity -/

/-- The removals of a selection as a list. -/
def remList (sel : List Entry) : List Path := sel.filterMap (fun e => if e.op = .remove then e.source.map (·.path) else none)

theorem removes_iff {sel : List Entry} {q : Path} : Spec.Removes sel q ↔ q ∈ remList sel := by
  unfold remList
  rw [List.mem_filterMap]
  constructor
  · rintro ⟨e, he, ho, x, hx, rfl⟩; exact ⟨e, he, by rw [if_pos ho, hx]; rfl⟩
  · rintro ⟨e, he, h⟩
    split at h
    · next ho =>
      cases hx : e.source with
      | none => rw [hx] at h; cases h
      | some x =>
        rw [hx] at h
        exact ⟨e, he, ho, x, hx, Option.some.inj h⟩
    · cases h

/-- `Spec.Arrives` as a list. -/
def arrList (host : FS) (sel : List Entry) (p y : Path) : List Node :=
  (renList sel).filterMap (fun x =>
    if x.2 <+: p ∧ (∀ x' ∈ renList sel, x'.2 <+: p → x'.2 <+: x.2) ∧ x.1 ++ p.drop x.2.length ++ y ∉ remList sel ∧
      (∀ x' ∈ renList sel, x'.1 <+: x.1 ++ p.drop x.2.length ++ y → x'.1 <+: x.1)
    then host.get (x.1 ++ p.drop x.2.length ++ y) else none) ++
  (if (∀ x ∈ renList sel, ¬ x.2 <+: p) ∧ p ++ y ∉ remList sel ∧ (∀ x ∈ renList sel, ¬ x.1 <+: p ++ y) then (host.get (p ++ y)).toList else [])

theorem mem_arrList {host : FS} {sel : List Entry} {p y : Path} {n : Node} (h : Spec.Arrives host sel p y n) : n ∈ arrList host sel p y := by
  unfold arrList
  rw [List.mem_append]
  cases h with
  | moved s d r h1 h2 h3 h4 h5 h6 =>
    left
    subst h2
    simp only [renames_iff, removes_iff] at h1 h3 h5 h6
    refine List.mem_filterMap.2 ⟨(s, d), h1, ?_⟩
    simp only [List.drop_left]
    rw [if_pos ⟨List.prefix_append _ _, fun x' hx' => h3 x'.1 x'.2 hx', h5, fun x' hx' => h6 x'.1 x'.2 hx'⟩]
    exact h4
  | kept h1 h2 h3 h4 =>
    right
    simp only [renames_iff, removes_iff] at h1 h3 h4
    rw [if_pos ⟨fun x hx => h1 x.1 x.2 hx, h3, fun x hx => h4 x.1 x.2 hx⟩]
    simp [h2]

theorem arrives_of_mem {host : FS} {sel : List Entry} {p y : Path} {n : Node} (h : n ∈ arrList host sel p y) : Spec.Arrives host sel p y n := by
  unfold arrList at h
  rcases List.mem_append.1 h with h | h
  · obtain ⟨⟨s, d⟩, h1, h2⟩ := List.mem_filterMap.1 h
    split at h2
    · next hc =>
      obtain ⟨⟨r, rfl⟩, c2, c3, c4⟩ := hc
      simp only [List.drop_left] at c3 c4 h2
      refine .moved s d r (renames_iff.2 h1) rfl (fun s' d' h' => c2 (s', d') (renames_iff.1 h')) h2 (fun h' => c3 (removes_iff.1 h'))
        (fun s' d' h' => c4 (s', d') (renames_iff.1 h'))
    · cases h2
  · split at h
    · next hc =>
      exact .kept (fun s d h' => hc.1 (s, d) (renames_iff.1 h')) (by simpa using h) (fun h' => hc.2.1 (removes_iff.1 h')) (fun s d h' => hc.2.2 (s, d) (renames_iff.1 h'))
    · cases h

def isSetB (e : Entry) : Bool := match e.op with | .set _ => true | _ => false
def isErrB (e : Entry) : Bool := match e.op with | .error _ => true | _ => false

/-- `Spec.FeasibleMoves` by computation, on a host with a single file system. -/
theorem feasibleMoves_of_check {env : Env} {host : FS} {sel : List Entry} (D : Nat) (h0 : ∃ m, host.get [] = some m) (hdev : ∀ e ∈ host, e.2.dev = D)
    (ops : ∀ e ∈ sel, isErrB e = false)
    (closed : ∀ q ∈ remList sel, ∀ q' ∈ host.keys, q <+: q' → q' ∈ remList sel)
    (kinds : ∀ q ∈ remList sel, ∀ n ∈ host.get q, Spec.ftype n.kind = .file ∨ Spec.ftype n.kind = .directory ∨ Spec.ftype n.kind = .symlink)
    (once : sel.Pairwise (fun e e' => e.op = .remove → e'.op = .remove → e.dest ≠ e'.dest))
    (ren : ∀ x ∈ renList sel, (∀ x' ∈ renList sel, x.1 = x'.1 → x.2 = x'.2) ∧ x.1 ∉ remList sel ∧ (∀ n ∈ host.get x.1, Spec.ftype n.kind ≠ .symlink) ∧
      (∀ n ∈ host.get x.2, Spec.ftype n.kind ≠ .symlink) ∧ ¬ x.1 <+: env.cwd ∧ x.1 ≠ [] ∧ x.2 ≠ [])
    (cwd : (∃ n ∈ host.get env.cwd, Spec.ftype n.kind = .directory) ∧ env.cwd ∉ remList sel)
    (parent : ∀ e ∈ sel, e.op ≠ .remove →
      (∃ e' ∈ sel, isSetB e' = true ∧ e'.dest = e.dest.dropLast ∧ ∃ s ∈ e'.staged, Spec.ftype s.node.kind = .directory) ∨
      ((∃ n ∈ arrList host sel e.dest.dropLast [], Spec.ftype n.kind = .directory) ∧ ∀ e' ∈ sel, isSetB e' = true → e'.dest ≠ e.dest.dropLast))
    (place : ∀ e ∈ sel, isSetB e = true → ∀ s ∈ e.staged, ∀ k ∈ arrList host sel e.dest.dropLast (e.dest.drop (e.dest.length - 1)),
      (Spec.ftype k.kind = .directory ↔ Spec.ftype s.node.kind = .directory))
    (free : ∀ e ∈ sel, e.op = .rename → arrList host sel e.dest.dropLast (e.dest.drop (e.dest.length - 1)) = []) : Spec.FeasibleMoves env host sel := by
  have hset : ∀ e : Entry, Spec.IsSet e → isSetB e = true := by
    rintro e ⟨t, h⟩; unfold isSetB; rw [h]
  have hlast : ∀ (p : Path) x, p = p.dropLast ++ [x] → p.drop (p.length - 1) = [x] := by
    intro p x h
    rw [h]; simp
  have hdv : ∀ {q n}, host.get q = some n → n.dev = D := fun h => hdev _ (FS.mem_of_get h)
  refine ⟨fun e he x h => ?_, ?_, ?_, ?_, once, ?_, ?_, ?_, ?_, ?_, ?_, ?_, ?_⟩
  · have := ops e he; unfold isErrB at this; rw [h] at this; cases this
  · intro q q' h; rw [removes_iff] at h ⊢; exact closed q h q'
  · intro q n h hn; exact kinds q (removes_iff.1 h) n hn
  · intro q n m _ hn _ hm; rw [hdv hn, hdv hm]
  · intro s d d' h h'; exact (ren _ (renames_iff.1 h)).1 _ (renames_iff.1 h') rfl
  · intro s d h h'; exact (ren _ (renames_iff.1 h)).2.1 (removes_iff.1 h')
  · intro s d n h hn
    obtain ⟨_, _, a, b, _⟩ := ren _ (renames_iff.1 h)
    rcases hn with hn | hn
    · exact a n hn
    · exact b n hn
  · intro s d h
    obtain ⟨n, h1, h2⟩ := cwd.1
    exact ⟨⟨n, h1, h2⟩, fun h' => cwd.2 (removes_iff.1 h'), (ren _ (renames_iff.1 h)).2.2.2.2.1⟩
  · intro _
    obtain ⟨m, hm⟩ := h0
    refine ⟨[], ⟨m, hm, Or.inl rfl, fun p _ => ⟨List.nil_prefix, fun q n _ _ hn => by rw [hdv hn, hdv hm]⟩⟩, fun s d h => ?_⟩
    exact (ren _ (renames_iff.1 h)).2.2.2.2.2
  · intro e he h
    rcases parent e he (by rcases h with ⟨t, h⟩ | h <;> rw [h] <;> simp) with ⟨e', h1, h2, h3, s, h4, h5⟩ | ⟨⟨n, h1, h2⟩, h3⟩
    · refine Or.inl ⟨e', h1, ?_, h3, s, h4, h5⟩
      unfold isSetB at h2
      cases ho : e'.op <;> rw [ho] at h2 <;> first | exact ⟨_, ho⟩ | cases h2
    · exact Or.inr ⟨⟨n, arrives_of_mem h1, h2⟩, fun e' he' hs => h3 e' he' (hset e' hs)⟩
  · intro e he hs s x k hst hd hk
    exact place e he (hset e hs) s hst k (by rw [hlast _ x hd]; exact mem_arrList hk)
  · intro e he hs x k hd hk
    have := mem_arrList hk
    rw [← hlast _ x hd, free e he hs] at this
    cases this

/-- The host of `exSwapState`.  In the sandbox `/d/a` and `/d/b` were swapped; then in the new `/d/a` the file `y` was removed, the directory `e` renamed to `f`, and `f/g/h` created; in
the new `/d/b` the file `x` was modified; `/d/c` was renamed to `/d/n`, and a file `/d/c` created. -/
def exMixUpper : FS :=
  [ ([], { kind := .dir }), ([str "F4"], { kind := .dir }), ([str "F4", str "d"], { kind := .dir }),
    ([str "F4", str "d", str "a"], { kind := .dir, redirect := some (str "b") }), ([str "F4", str "d", str "b"], { kind := .dir, redirect := some (str "/d/a") }),
    ([str "F4", str "d", str "a", str "y"], { kind := .chr 0 }), ([str "F4", str "d", str "a", str "e"], { kind := .chr 0 }),
    ([str "F4", str "d", str "a", str "f"], { kind := .dir, redirect := some (str "/d/b/e") }), ([str "F4", str "d", str "a", str "f", str "g"], { kind := .dir, opq := true }),
    ([str "F4", str "d", str "a", str "f", str "g", str "h"], { kind := .reg (str "h") }), ([str "F4", str "d", str "b", str "x"], { kind := .reg (str "new") }),
    ([str "F4", str "d", str "n"], { kind := .dir, redirect := some (str "c") }), ([str "F4", str "d", str "c"], { kind := .reg (str "c") }) ]
def exMixState : State := ⟨exSwapHost, exMixUpper⟩

theorem exMix_ordinary : Spec.Ordinary exEnv exMixState :=
  ordinary_of_check (fun _ => rfl) (fun _ => rfl) (by decide +kernel) (by decide +kernel) (by decide +kernel)

theorem exMix_feasible : Spec.FeasibleMoves exEnv exMixState.lower (selected exEnv exMixState) :=
  feasibleMoves_of_check 0 ⟨_, rfl⟩ (by decide +kernel) (by decide +kernel) (by decide +kernel) (by decide +kernel) (by decide +kernel) (by decide +kernel) (by decide +kernel)
    (by decide +kernel) (by decide +kernel) (by decide +kernel)

example : (accept exEnv exMixState).error = none ∧ Spec.Applied (selected exEnv exMixState) exMixState.lower (accept exEnv exMixState).state.lower :=
  C85_moves_partial exEnv exMixState exMix_ordinary (by decide +kernel) (oneDevice_of_check 0 (by decide +kernel)) exMix_feasible

example : renList (selected exEnv exMixState) = [ ([str "d", str "b"], [str "d", str "a"]), ([str "d", str "a"], [str "d", str "b"]),
      ([str "d", str "b", str "e"], [str "d", str "a", str "f"]), ([str "d", str "c"], [str "d", str "n"]) ] ∧
    remList (selected exEnv exMixState) = [[str "d", str "b", str "y"]] ∧
    (accept exEnv exMixState).state.lower.get [str "d", str "a", str "f", str "z"] = some { kind := .reg (str "z") } ∧
    (accept exEnv exMixState).state.lower.get [str "d", str "b", str "x"] = some { kind := .reg (str "new") } ∧
    (accept exEnv exMixState).state.lower.get [str "d", str "a", str "f", str "g", str "h"] = some { kind := .reg (str "h") } := by decide +kernel

end SB
