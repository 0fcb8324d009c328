import Verif.Model.Setup
import Verif.Lib.Digits
import Verif.Props.Base32
import Verif.Props.Mounts

/-!
# C69: the steps of set-up lead to the intended mounts and leave nothing of the host behind
-/

namespace SB

open scoped List

/-! ### mount tables -/

theorem lineAt_append (a b : List Line) (p : Path) : lineAt (a ++ b) p = (lineAt b p).or (lineAt a p) := by
  unfold lineAt
  rw [List.reverse_append, List.find?_append]

theorem lineAt_none {l : List Line} {p : Path} (h : ∀ o ∈ l, ¬ o.target <+: p) : lineAt l p = none := by
  unfold lineAt
  rw [List.find?_eq_none]
  intro o ho hp
  exact h o (List.mem_reverse.1 ho) (List.isPrefixOf_iff_prefix.1 hp)

theorem lineAt_mem {l : List Line} {p : Path} {o : Line} (h : lineAt l p = some o) : o ∈ l ∧ o.target <+: p := by
  unfold lineAt at h
  have h1 := List.find?_some h
  exact ⟨List.mem_reverse.1 (List.mem_of_find?_eq_some h), List.isPrefixOf_iff_prefix.1 h1⟩

theorem lineAt_isSome {l : List Line} {p : Path} {o : Line} (ho : o ∈ l) (h : o.target <+: p) : ∃ x, lineAt l p = some x := by
  cases hx : lineAt l p with
  | some x => exact ⟨x, rfl⟩
  | none =>
    unfold lineAt at hx
    rw [List.find?_eq_none] at hx
    exact absurd (List.isPrefixOf_iff_prefix.2 h) (hx o (List.mem_reverse.2 ho))

/-- Lines that are not at or below `d` survive detaching. -/
theorem detachLines_append {d : Path} : ∀ (a b : List Line), (∀ l ∈ a, ¬ d <+: l.target) → detachLines d (a ++ b) = a ++ detachLines d b
  | [], _, _ => rfl
  | l :: a, b, h => by
    have h1 := h l (by simp)
    rw [List.cons_append, detachLines, if_neg (fun e : l.target = d => h1 (e ▸ List.prefix_refl _)), if_neg (fun e => h1 (List.isPrefixOf_iff_prefix.1 e)),
      detachLines_append a b (fun x hx => h x (by simp [hx])), List.cons_append]

/-- Lines strictly below `d` that are newer than the one at `d` are detached with it. -/
theorem detachLines_below {d : Path} : ∀ (a b : List Line), (∀ l ∈ a, d <+: l.target ∧ l.target ≠ d) → detachLines d (a ++ b) = detachLines d b
  | [], _, _ => rfl
  | l :: a, b, h => by
    have h1 := h l (by simp)
    rw [List.cons_append, detachLines, if_neg h1.2, if_pos (List.isPrefixOf_iff_prefix.2 h1.1), detachLines_below a b (fun x hx => h x (by simp [hx]))]

/-- Detach the mount at `d` in the middle of a table: what is newer and not below it stays, what is below it goes. -/
theorem detachLine_mid {d : Path} (A B C : List Line) (w : Shown) (hB : ∀ l ∈ B, d <+: l.target ∧ l.target ≠ d) (hC : ∀ l ∈ C, ¬ d <+: l.target ∧ ¬ l.target <+: d) :
    detachLine (A ++ ⟨d, w⟩ :: B ++ C) d = some (A ++ C) := by
  have hl : lineAt (A ++ ⟨d, w⟩ :: B ++ C) d = some ⟨d, w⟩ := by
    rw [lineAt_append, lineAt_none (fun l hl => (hC l hl).2), Option.none_or, lineAt_append]
    have : (⟨d, w⟩ :: B : List Line) = [⟨d, w⟩] ++ B := rfl
    rw [this, lineAt_append, lineAt_none (l := B) (fun l hl hp => (hB l hl).2 (hp.eq_of_length (le_antisymm hp.length_le (hB l hl).1.length_le))), Option.none_or]
    have : lineAt [(⟨d, w⟩ : Line)] d = some ⟨d, w⟩ := by simp [lineAt]
    rw [this, Option.some_or]
  unfold detachLine
  rw [hl]
  simp only [if_true]
  have hr : (A ++ ⟨d, w⟩ :: B ++ C).reverse = C.reverse ++ (B.reverse ++ (⟨d, w⟩ :: A.reverse)) := by simp
  rw [hr, detachLines_append _ _ (fun l hl => (hC l (List.mem_reverse.1 hl)).1), detachLines_below _ _ (fun l hl => hB l (List.mem_reverse.1 hl)), detachLines,
    if_pos rfl]
  simp

theorem untilLine_append {d : Path} : ∀ (a : List Line) (l : Line) (b : List Line), (∀ x ∈ a, x.target ≠ d) → l.target = d →
    untilLine d (a ++ l :: b) = some (a ++ [l], b)
  | [], l, b, _, h => by simp [untilLine, h]
  | x :: a, l, b, ha, h => by
    rw [List.cons_append, untilLine, if_neg (ha x (by simp)), untilLine_append a l b (fun y hy => ha y (by simp [hy])) h]
    rfl

/-! ### staging -/

theorem stageLines_mem {su : SetupEnv} : ∀ {bs : List StartBind} {i : Nat} {l : Line}, l ∈ stageLines su bs i →
    ∃ j, i ≤ j ∧ l.target = rootOverlay su ++ stagingPath su j
  | [], _, _, h => by simp [stageLines] at h
  | b :: r, i, l, h => by
    rw [stageLines, List.mem_cons] at h
    rcases h with rfl | h
    · exact ⟨i, le_refl _, rfl⟩
    · obtain ⟨j, hj, ht⟩ := stageLines_mem h
      exact ⟨j, by omega, ht⟩

/-- The staging mounts as seen from the new root. -/
def stagedLines (su : SetupEnv) : List StartBind → Nat → List Line
  | [], _ => []
  | b :: r, i => ⟨stagingPath su i, .own (bindMounted su.se b)⟩ :: stagedLines su r (i + 1)

theorem stageLines_strip (su : SetupEnv) : ∀ (bs : List StartBind) (i : Nat),
    (stageLines su bs i).map (fun l => (⟨l.target.drop (rootOverlay su).length, l.what⟩ : Line)) = stagedLines su bs i
  | [], _ => rfl
  | b :: r, i => by
    rw [stageLines, stagedLines, List.map_cons, stageLines_strip su r (i + 1)]
    simp

theorem stagedLines_mem {su : SetupEnv} : ∀ {bs : List StartBind} {i : Nat} {l : Line}, l ∈ stagedLines su bs i → ∃ j, i ≤ j ∧ l.target = stagingPath su j
  | [], _, _, h => by simp [stagedLines] at h
  | b :: r, i, l, h => by
    rw [stagedLines, List.mem_cons] at h
    rcases h with rfl | h
    · exact ⟨i, le_refl _, rfl⟩
    · obtain ⟨j, hj, ht⟩ := stagedLines_mem h
      exact ⟨j, by omega, ht⟩

theorem stagingPath_inj {su : SetupEnv} {i j : Nat} (h : stagingPath su i <+: stagingPath su j) : i = j := by
  have h := h.eq_of_length (by simp [stagingPath])
  simp only [stagingPath, List.cons.injEq, List.append_cancel_left_eq, and_true, true_and] at h
  exact toString_inj h

theorem stagedLines_at (su : SetupEnv) : ∀ (bs : List StartBind) (i j : Nat) (b : StartBind), bs[j]? = some b →
    lineAt (stagedLines su bs i) (stagingPath su (i + j)) = some ⟨stagingPath su (i + j), .own (bindMounted su.se b)⟩
  | [], _, _, _, h => by simp at h
  | b' :: r, i, j, b, h => by
    have hc : stagedLines su (b' :: r) i = [⟨stagingPath su i, .own (bindMounted su.se b')⟩] ++ stagedLines su r (i + 1) := rfl
    rw [hc, lineAt_append]
    cases j with
    | zero =>
      simp only [List.getElem?_cons_zero, Option.some.injEq] at h
      subst h
      rw [lineAt_none (l := stagedLines su r (i + 1))]
      · simp [lineAt]
      · intro o ho hp
        obtain ⟨k, hk, ht⟩ := stagedLines_mem ho
        rw [ht] at hp
        have := stagingPath_inj hp
        omega
    | succ j =>
      have := stagedLines_at su r (i + 1) j b (by simpa using h)
      rw [show i + (j + 1) = i + 1 + j by omega, this, Option.some_or]

/-- Neither is at or above the other. -/
def Spec.Apart (p q : Path) : Prop := ¬ p <+: q ∧ ¬ q <+: p

theorem apart_staging {su : SetupEnv} {p : Path} (h : Spec.Apart p [str "run", su.staging]) (i : Nat) :
    ¬ p <+: stagingPath su i ∧ ¬ stagingPath su i <+: p ∧ p ≠ stagingPath su i := by
  have hpre : [str "run", su.staging] <+: stagingPath su i := ⟨[_], rfl⟩
  have h2 : ¬ stagingPath su i <+: p := fun h' => h.2 (hpre.trans h')
  refine ⟨fun hp => ?_, h2, fun e => h2 (e ▸ List.prefix_refl _)⟩
  rcases List.prefix_or_prefix_of_prefix hp hpre with h' | h'
  · exact h.1 h'
  · exact h.2 h'

/-! ### the three loops -/

theorem bindOverlays_eq (su : SetupEnv) (all : List MountHash) (hn : ∀ m ∈ all, m.hash = mountName m.dir) (hnp : ∀ m ∈ all, NormalPath m.dir)
    (ho : ∀ m ∈ all, m.dir.head? ≠ some su.oldRoot) (A H : List Line) :
    ∀ (ms : List MountHash) (B : List Line), (∀ m ∈ ms, m ∈ all) → (∀ l ∈ B, l.target ≠ [] ∧ l.target.head? ≠ some su.oldRoot) →
    bindOverlays su ms (A ++ (H ++ overlayLines su all).map (fun l => (⟨su.oldRoot :: l.target, l.what⟩ : Line)) ++ B) =
      some (A ++ (H ++ overlayLines su all).map (fun l => (⟨su.oldRoot :: l.target, l.what⟩ : Line)) ++ B ++
        (ms.filter (fun m => m.dir ≠ [])).map (fun m => (⟨m.dir, .own (.overlay m.dir)⟩ : Line)))
  | [], B, _, _ => by simp [bindOverlays]
  | m :: r, B, hms, hB => by
    rw [bindOverlays]
    by_cases hd : m.dir = []
    · rw [if_pos hd, bindOverlays_eq su all hn hnp ho A H r B (fun x hx => hms x (by simp [hx])) hB]
      simp [hd]
    · rw [if_neg hd]
      have hm := hms m (by simp)
      have hline : lineAt (A ++ (H ++ overlayLines su all).map (fun l => (⟨su.oldRoot :: l.target, l.what⟩ : Line)) ++ B) (su.oldRoot :: (su.overlayBase ++ [m.hash])) =
          some ⟨su.oldRoot :: (su.overlayBase ++ [m.hash]), .own (.overlay m.dir)⟩ := by
        rw [lineAt_append, lineAt_none (l := B), Option.none_or, lineAt_append, List.map_append, lineAt_append]
        · obtain ⟨x, hx⟩ := lineAt_isSome (l := (overlayLines su all).map (fun l => (⟨su.oldRoot :: l.target, l.what⟩ : Line)))
            (p := su.oldRoot :: (su.overlayBase ++ [m.hash])) (o := ⟨su.oldRoot :: (su.overlayBase ++ [m.hash]), .own (.overlay m.dir)⟩)
            (List.mem_map.2 ⟨⟨su.overlayBase ++ [m.hash], .own (.overlay m.dir)⟩, List.mem_map.2 ⟨m, hm, rfl⟩, rfl⟩) (List.prefix_refl _)
          rw [hx, Option.some_or, Option.some_or]
          obtain ⟨hxm, hxp⟩ := lineAt_mem hx
          obtain ⟨y, hy, rfl⟩ := List.mem_map.1 hxm
          obtain ⟨m', hm', rfl⟩ := List.mem_map.1 hy
          have he : su.oldRoot :: (su.overlayBase ++ [m'.hash]) = su.oldRoot :: (su.overlayBase ++ [m.hash]) := hxp.eq_of_length (by simp)
          have hh : m'.hash = m.hash := by simpa using he
          have hdir : m'.dir = m.dir := by
            rw [hn m' hm', hn m hm] at hh
            exact C29_injective _ _ (hnp m' hm') (hnp m hm) hh
          simp only [he, hdir]
        · intro l hl hp
          obtain ⟨h1, h2⟩ := hB l hl
          cases ht : l.target with
          | nil => exact h1 ht
          | cons x xs =>
            rw [ht] at hp h2
            rw [List.cons_prefix_cons] at hp
            exact h2 (by rw [hp.1]; rfl)
      unfold bindLine
      rw [hline]
      simp only [if_true]
      rw [List.append_assoc _ B, bindOverlays_eq su all hn hnp ho A H r (B ++ [(⟨m.dir, .own (.overlay m.dir)⟩ : Line)]) (fun x hx => hms x (by simp [hx]))]
      · simp [hd]
      · intro l hl
        rcases List.mem_append.1 hl with hl | hl
        · exact hB l hl
        · rw [List.mem_singleton] at hl
          subst hl
          exact ⟨hd, ho m hm⟩

theorem placeBinds_eq (su : SetupEnv) (all : List StartBind) (A C : List Line) (hC : ∀ l ∈ C, Spec.Apart l.target [str "run", su.staging]) :
    ∀ (bs : List StartBind) (i : Nat) (P : List Line), (∀ j b, bs[j]? = some b → all[i + j]? = some b) → (∀ b ∈ bs, Spec.Apart b.target [str "run", su.staging]) →
    (∀ l ∈ P, Spec.Apart l.target [str "run", su.staging]) →
    placeBinds su bs i (A ++ stagedLines su all 0 ++ C ++ P) =
      some (A ++ stagedLines su all 0 ++ C ++ P ++ bs.map (fun b => (⟨b.target, .own (bindMounted su.se b)⟩ : Line)))
  | [], _, P, _, _, _ => by simp [placeBinds]
  | b :: r, i, P, hidx, hbs, hP => by
    have hb := hidx 0 b rfl
    have hline : lineAt (A ++ stagedLines su all 0 ++ C ++ P) (stagingPath su i) = some ⟨stagingPath su i, .own (bindMounted su.se b)⟩ := by
      rw [lineAt_append, lineAt_none (l := P) (fun l hl => (apart_staging (hP l hl) i).1), Option.none_or, lineAt_append,
        lineAt_none (l := C) (fun l hl => (apart_staging (hC l hl) i).1), Option.none_or, lineAt_append]
      have := stagedLines_at su all 0 i b (by simpa using hb)
      rw [Nat.zero_add] at this
      rw [this, Option.some_or]
    rw [placeBinds]
    unfold bindLine
    rw [hline]
    simp only [if_true]
    rw [List.append_assoc _ P, placeBinds_eq su all A C hC r (i + 1) (P ++ [(⟨b.target, .own (bindMounted su.se b)⟩ : Line)])]
    · simp
    · intro j b' hj
      have := hidx (j + 1) b' (by simpa using hj)
      rwa [show i + 1 + j = i + (j + 1) by omega]
    · exact fun x hx => hbs x (by simp [hx])
    · intro l hl
      rcases List.mem_append.1 hl with hl | hl
      · exact hP l hl
      · rw [List.mem_singleton] at hl
        subst hl
        exact hbs b (by simp)

theorem unstage_eq (su : SetupEnv) (A C : List Line) (hC : ∀ l ∈ C, Spec.Apart l.target [str "run", su.staging]) :
    ∀ (bs : List StartBind) (i : Nat), unstage su bs i (A ++ stagedLines su bs i ++ C) = some (A ++ C)
  | [], _ => by simp [unstage, stagedLines]
  | b :: r, i => by
    rw [unstage, stagedLines]
    have h := detachLine_mid (d := stagingPath su i) A [] (stagedLines su r (i + 1) ++ C) (.own (bindMounted su.se b)) (by simp) (by
      intro l hl
      rcases List.mem_append.1 hl with hl | hl
      · obtain ⟨j, hj, ht⟩ := stagedLines_mem hl
        rw [ht]
        exact ⟨fun h => by have := stagingPath_inj h; omega, fun h => by have := stagingPath_inj h; omega⟩
      · have := apart_staging (hC l hl) i
        exact ⟨this.2.1, this.1⟩)
    have e : A ++ ⟨stagingPath su i, .own (bindMounted su.se b)⟩ :: stagedLines su r (i + 1) ++ C =
        A ++ ⟨stagingPath su i, .own (bindMounted su.se b)⟩ :: [] ++ (stagedLines su r (i + 1) ++ C) := by simp
    rw [e, h]
    simp only
    rw [← List.append_assoc]
    exact unstage_eq su A C hC r (i + 1)

theorem systemMounts_apart {se : StartEnv} {n : Name} : ∀ o ∈ systemMounts se, Spec.Apart o.target [str "run", n] := by
  have key : ∀ (x : Name) (r : Path), x ≠ str "run" → Spec.Apart (x :: r) [str "run", n] := by
    intro x r hx
    refine ⟨fun h => hx (List.cons_prefix_cons.1 h).1, fun h => hx (List.cons_prefix_cons.1 h).1.symm⟩
  intro o ho
  have hh : ∃ x r, o.target = x :: r ∧ x ≠ str "run" := by
    unfold systemMounts at ho
    simp only [List.mem_append, List.mem_map, List.mem_filter] at ho
    rcases ho with (ho | ⟨p, ⟨hp, _⟩, rfl⟩) | ⟨p, ⟨hp, _⟩, rfl⟩
    · simp only [List.mem_cons, List.not_mem_nil, or_false] at ho
      rcases ho with rfl | rfl | rfl | rfl | rfl | rfl <;> exact ⟨_, _, rfl, by decide⟩
    · rcases hp with hp | hp
      · simp only [procMasks, List.mem_cons, List.not_mem_nil, or_false] at hp
        rcases hp with rfl | rfl | rfl | rfl | rfl | rfl | rfl | rfl | rfl | rfl | rfl | rfl <;> exact ⟨_, _, rfl, by decide⟩
      · obtain ⟨c, _, rfl⟩ := List.mem_map.1 hp
        exact ⟨_, _, rfl, by decide⟩
    · simp only [procReadonly, List.mem_cons, List.not_mem_nil, or_false] at hp
      rcases hp with rfl | rfl | rfl | rfl | rfl <;> exact ⟨_, _, rfl, by decide⟩
  obtain ⟨x, r, ht, hx⟩ := hh
  rw [ht]
  exact key x r hx

/-- What set-up assumes about the host and the request. -/
structure Spec.SetupOk (su : SetupEnv) (host : List Line) (mounts : List MountHash) (binds : List StartBind) : Prop where
  /-- the host's root file system is mounted once, first -/
  hostRoot : ∃ w rest, host = ⟨[], w⟩ :: rest ∧ ∀ l ∈ rest, l.target ≠ []
  /-- the root is among the overlaid mounts, and each has the name of its directory -/
  root : ⟨mountName [], []⟩ ∈ mounts
  names : ∀ m ∈ mounts, m.hash = mountName m.dir ∧ NormalPath m.dir
  /-- the random name of the old root is new -/
  fresh : ∀ m ∈ mounts, m.dir.head? ≠ some su.oldRoot
  /-- no mount point and no bind target is at or above the staging directory `/run/NAME`, or (the name is new) inside it -/
  mountsApart : ∀ m ∈ mounts, m.dir ≠ [] → Spec.Apart m.dir [str "run", su.staging]
  bindsApart : ∀ b ∈ binds, Spec.Apart b.target [str "run", su.staging]

/-- The first lines of a sandbox: its root, `/dev` and `/run`. -/
def firstLines : List Line := [⟨[], .own (.overlay [])⟩, ⟨[str "dev"], .own .tmpfs⟩, ⟨[str "run"], .own .tmpfs⟩]

/-- The lines of the overlays that are bound to their places. -/
def boundLines (mounts : List MountHash) : List Line := (mounts.filter (fun m => m.dir ≠ [])).map (fun m => (⟨m.dir, .own (.overlay m.dir)⟩ : Line))

theorem setup_root (su : SetupEnv) (host : List Line) (mounts : List MountHash) (binds : List StartBind) (h : Spec.SetupOk su host mounts binds) :
    bindLine (host ++ overlayLines su mounts) (rootOverlay su) (rootOverlay su) =
      some (host ++ overlayLines su mounts ++ [⟨rootOverlay su, .own (.overlay [])⟩]) := by
    obtain ⟨x, hx⟩ := lineAt_isSome (l := overlayLines su mounts) (p := rootOverlay su) (o := ⟨rootOverlay su, .own (.overlay [])⟩)
      (List.mem_map.2 ⟨⟨mountName [], []⟩, h.root, rfl⟩) (List.prefix_refl _)
    obtain ⟨hxm, hxp⟩ := lineAt_mem hx
    obtain ⟨m, hm, rfl⟩ := List.mem_map.1 hxm
    have he : su.overlayBase ++ [m.hash] = rootOverlay su := hxp.eq_of_length (by simp [rootOverlay])
    have hh : m.hash = mountName [] := by simpa [rootOverlay] using he
    have hd : m.dir = [] := by
      rw [(h.names m hm).1] at hh
      exact C29_injective _ _ (h.names m hm).2 (by intro n hn; simp at hn) hh
    unfold bindLine
    rw [lineAt_append, hx, Option.some_or]
    simp only [he, if_true, hd]

theorem setup_pivot (su : SetupEnv) (host : List Line) (mounts : List MountHash) (binds : List StartBind) (h : Spec.SetupOk su host mounts binds) :
    pivot (host ++ overlayLines su mounts ++ [⟨rootOverlay su, .own (.overlay [])⟩] ++
      [⟨rootOverlay su ++ [str "dev"], .own .tmpfs⟩, ⟨rootOverlay su ++ [str "run"], .own .tmpfs⟩] ++ stageLines su binds 0) (rootOverlay su) su.oldRoot =
      some (firstLines ++ stagedLines su binds 0 ++ (host ++ overlayLines su mounts).map (fun l => (⟨su.oldRoot :: l.target, l.what⟩ : Line))) := by
    set N : List Line := [⟨rootOverlay su ++ [str "dev"], .own .tmpfs⟩, ⟨rootOverlay su ++ [str "run"], .own .tmpfs⟩] ++ stageLines su binds 0 with hN
    have hNin : ∀ l ∈ N, ∃ r, r ≠ [] ∧ l.target = rootOverlay su ++ r := by
      intro l hl
      rcases List.mem_append.1 hl with hl | hl
      · simp only [List.mem_cons, List.not_mem_nil, or_false] at hl
        rcases hl with rfl | rfl <;> exact ⟨_, List.cons_ne_nil _ _, rfl⟩
      · obtain ⟨j, _, ht⟩ := stageLines_mem hl
        exact ⟨_, by simp [stagingPath], ht⟩
    have hrev : (host ++ overlayLines su mounts ++ [(⟨rootOverlay su, .own (.overlay [])⟩ : Line)] ++
        [(⟨rootOverlay su ++ [str "dev"], .own .tmpfs⟩ : Line), ⟨rootOverlay su ++ [str "run"], .own .tmpfs⟩] ++ stageLines su binds 0).reverse =
        N.reverse ++ (⟨rootOverlay su, .own (.overlay [])⟩ : Line) :: (host ++ overlayLines su mounts).reverse := by
      rw [hN]; simp
    unfold pivot
    rw [hrev, untilLine_append (d := rootOverlay su) _ _ _ (by
      intro x hx e
      obtain ⟨r, hr, ht⟩ := hNin x (List.mem_reverse.1 hx)
      rw [ht] at e
      exact hr (by simpa using e)) rfl]
    simp only [List.reverse_append, List.reverse_reverse, List.reverse_cons, List.reverse_nil, List.nil_append]
    have hall : ∀ l ∈ [(⟨rootOverlay su, .own (.overlay [])⟩ : Line)] ++ N, (rootOverlay su).isPrefixOf l.target = true := by
      intro l hl
      rw [List.isPrefixOf_iff_prefix]
      rcases List.mem_append.1 hl with hl | hl
      · rw [List.mem_singleton] at hl; subst hl; exact List.prefix_refl _
      · obtain ⟨r, _, ht⟩ := hNin l hl
        exact ⟨r, ht.symm⟩
    rw [List.filter_eq_self.2 hall, List.filter_eq_nil_iff.2 (fun l hl => by simp [hall l hl])]
    simp only [List.append_nil, List.map_append, hN, Option.some.injEq, stageLines_strip]
    simp [firstLines]

theorem setup_overlays (su : SetupEnv) (host : List Line) (mounts : List MountHash) (binds : List StartBind) (h : Spec.SetupOk su host mounts binds) :
    bindOverlays su mounts (firstLines ++ stagedLines su binds 0 ++ (host ++ overlayLines su mounts).map (fun l => (⟨su.oldRoot :: l.target, l.what⟩ : Line))) =
      some (firstLines ++ stagedLines su binds 0 ++ (host ++ overlayLines su mounts).map (fun l => (⟨su.oldRoot :: l.target, l.what⟩ : Line)) ++ boundLines mounts) := by
  have h3 := bindOverlays_eq su mounts (fun m hm => (h.names m hm).1) (fun m hm => (h.names m hm).2) h.fresh (firstLines ++ stagedLines su binds 0) host mounts []
    (fun _ hm => hm) (by simp)
  rw [List.append_nil] at h3
  exact h3

theorem setup_detach (su : SetupEnv) (host : List Line) (mounts : List MountHash) (binds : List StartBind) (h : Spec.SetupOk su host mounts binds) :
    detachLine (firstLines ++ stagedLines su binds 0 ++ (host ++ overlayLines su mounts).map (fun l => (⟨su.oldRoot :: l.target, l.what⟩ : Line)) ++ boundLines mounts) [su.oldRoot] =
      some (firstLines ++ stagedLines su binds 0 ++ boundLines mounts) := by
    obtain ⟨w, rest, rfl, hrest⟩ := h.hostRoot
    set host : List Line := ⟨[], w⟩ :: rest with hhost
    have hBin : ∀ l ∈ boundLines mounts, ∃ m ∈ mounts, m.dir ≠ [] ∧ l.target = m.dir := by
      intro l hl
      obtain ⟨m, hm, rfl⟩ := List.mem_map.1 hl
      obtain ⟨hm1, hm2⟩ := List.mem_filter.1 hm
      exact ⟨m, hm1, by simpa using hm2, rfl⟩
    have e : (host ++ overlayLines su mounts).map (fun l => (⟨su.oldRoot :: l.target, l.what⟩ : Line)) =
        ⟨[su.oldRoot], w⟩ :: (rest ++ overlayLines su mounts).map (fun l => (⟨su.oldRoot :: l.target, l.what⟩ : Line)) := by rw [hhost]; rfl
    rw [e]
    refine detachLine_mid _ _ _ w ?_ ?_
    · intro l hl
      obtain ⟨x, hx, rfl⟩ := List.mem_map.1 hl
      refine ⟨⟨x.target, rfl⟩, fun e => ?_⟩
      have e' : x.target = [] := by simpa using e
      rcases List.mem_append.1 hx with hx | hx
      · exact hrest x hx e'
      · obtain ⟨m, _, rfl⟩ := List.mem_map.1 hx
        simp at e'
    · intro l hl
      obtain ⟨m, hm, hd, ht⟩ := hBin l hl
      have hf := h.fresh m hm
      rw [ht]
      cases hmd : m.dir with
      | nil => exact absurd hmd hd
      | cons x xs =>
        rw [hmd] at hf
        refine ⟨fun hp => hf (by rw [(List.cons_prefix_cons.1 hp).1]; rfl), fun hp => hf (by rw [(List.cons_prefix_cons.1 hp).1]; rfl)⟩

/-- **C69**: set-up succeeds and the mount table of the sandbox is exactly the intended list of mounts: nothing of the host's mounts, of the staging area or of the old
root is left. -/
theorem C69_setup_partial (su : SetupEnv) (host : List Line) (mounts : List MountHash) (binds : List StartBind) (h : Spec.SetupOk su host mounts binds) :
    runSetup su host mounts binds = some ((startMounts su.se mounts binds).map (fun o => ⟨o.target, .own o.what⟩)) := by
  have h1 := setup_root su host mounts binds h
  have h2 := setup_pivot su host mounts binds h
  have h3 := setup_overlays su host mounts binds h
  have h4 := setup_detach su host mounts binds h
  set A0 : List Line := firstLines with hA0
  set B : List Line := boundLines mounts with hB
  have hBin : ∀ l ∈ B, ∃ m ∈ mounts, m.dir ≠ [] ∧ l.target = m.dir := by
    intro l hl
    obtain ⟨m, hm, rfl⟩ := List.mem_map.1 hl
    obtain ⟨hm1, hm2⟩ := List.mem_filter.1 hm
    exact ⟨m, hm1, by simpa using hm2, rfl⟩
  set S : List Line := (systemMounts su.se).map (fun o => (⟨o.target, .own o.what⟩ : Line)) with hS
  have hBS : ∀ l ∈ B ++ S, Spec.Apart l.target [str "run", su.staging] := by
    intro l hl
    rcases List.mem_append.1 hl with hl | hl
    · obtain ⟨m, hm, hd, ht⟩ := hBin l hl
      rw [ht]
      exact h.mountsApart m hm hd
    · obtain ⟨o, ho, rfl⟩ := List.mem_map.1 hl
      exact systemMounts_apart o ho
  have h5 := placeBinds_eq su binds A0 (B ++ S) hBS binds 0 [] (fun j b hj => by simpa using hj) h.bindsApart (by simp)
  rw [List.append_nil] at h5
  set P : List Line := binds.map (fun b => (⟨b.target, .own (bindMounted su.se b)⟩ : Line)) with hP
  have h6 := unstage_eq su A0 (B ++ S ++ P) (by
    intro l hl
    rcases List.mem_append.1 hl with hl | hl
    · exact hBS l hl
    · obtain ⟨b, hb, rfl⟩ := List.mem_map.1 hl
      exact h.bindsApart b hb) binds 0
  unfold runSetup
  simp only [h1, h2, h3, h4]
  rw [show A0 ++ stagedLines su binds 0 ++ B ++ S = A0 ++ stagedLines su binds 0 ++ (B ++ S) by simp, h5]
  simp only
  rw [show A0 ++ stagedLines su binds 0 ++ (B ++ S) ++ P = A0 ++ stagedLines su binds 0 ++ (B ++ S ++ P) by simp, h6]
  simp only [startMounts, List.map_append, List.map_map, earlyMounts, Option.some.injEq, hA0, firstLines, hB, boundLines, hS, hP]
  simp [Function.comp_def]

/-- A host with `/` and `/home` mounted, storage in `/home/s`, sandbox `b`. -/
def exSetup : SetupEnv := ⟨exStart, [str "home", str "s", str "b", str "overlay"], str "old-root-1", str "bind-mounts-staging-2"⟩

def exHostTable : List Line := [⟨[], .host []⟩, ⟨[str "proc"], .host [str "proc"]⟩, ⟨[str "home"], .host [str "home"]⟩]

def exSetupMounts : List MountHash := [⟨mountName [], []⟩, ⟨mountName [str "home"], [str "home"]⟩]

def exData : StartBind := ⟨[str "home", str "s", str "b", str "data"], [str "home", str "s", str "b", str "data"], .rw⟩

instance (p q : Path) : Decidable (Spec.Apart p q) := by unfold Spec.Apart; infer_instance

/-- Non-vacuity: a host with two mounts, a read-only bind, a mask in `/run` and the data directory. -/
example : Spec.SetupOk exSetup exHostTable exSetupMounts [⟨[str "opt"], [str "opt"], .ro⟩, ⟨[str "dev", str "null"], [str "run", str "user"], .mask⟩, exData] where
  hostRoot := ⟨_, _, rfl, by decide +kernel⟩
  root := by simp [exSetupMounts]
  names := by decide +kernel
  fresh := by decide +kernel
  mountsApart := by decide +kernel
  bindsApart := by decide +kernel

/-- **C69 refuted** for binds (or masks) on `/run`: they hide the staging directory, so that set-up fails although the configuration was accepted.  The data directory is
always bound last. -/
theorem C69_refuted_run : runSetup exSetup exHostTable exSetupMounts [⟨[str "opt"], [str "run"], .ro⟩, exData] = none ∧
    (runSetup exSetup exHostTable exSetupMounts [⟨[str "opt"], [str "srv"], .ro⟩, exData]).isSome = true := by decide +kernel

end SB
