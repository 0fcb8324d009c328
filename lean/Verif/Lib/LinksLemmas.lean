import Verif.Model.Links
import Verif.Lib.RaceLemmas
import Verif.Lib.Bridge

/-! File systems whose files may have several names (proof machinery for C115). -/

namespace SB

theorem FS.set_absent {fs : FS} {p : Path} (n : Node) (h : fs.get p = none) : fs.set p n = fs ++ [(p, n)] := by
  induction fs with
  | nil => rfl
  | cons e r ih =>
    obtain ⟨q, m⟩ := e
    by_cases hq : q = p
    · simp [FS.get, hq] at h
    · simp only [FS.get, hq, if_false] at h
      simp only [FS.set, hq, if_false, ih h, List.cons_append]

theorem FS.set_present {fs : FS} {p : Path} (n : Node) (hd : fs.keys.Nodup) (h : fs.get p ≠ none) : fs.set p n = fs.map (fun e => if e.1 = p then (p, n) else e) := by
  induction fs with
  | nil => exact absurd rfl h
  | cons e r ih =>
    obtain ⟨q, m⟩ := e
    simp only [FS.keys, List.map_cons, List.nodup_cons] at hd
    by_cases hq : q = p
    · subst hq
      simp only [FS.set, if_true, List.map_cons, List.cons.injEq, true_and]
      symm
      conv => rhs; rw [← List.map_id r]
      refine List.map_congr_left (fun x hx => ?_)
      rw [if_neg]
      · rfl
      · rintro rfl
        exact hd.1 (List.mem_map.2 ⟨x, hx, rfl⟩)
    · simp only [FS.get, hq, if_false] at h
      simp only [FS.set, hq, if_false, List.map_cons, ih hd.2 h]

namespace Links
variable {L : Links} {p q : Path}

theorem view_keys : L.view.keys = L.names.map Prod.fst := by
  unfold view FS.keys; rw [List.map_map]; rfl

theorem get_view (L : Links) (p : Path) : L.view.get p = (L.ino p).map L.files := by
  obtain ⟨names, files⟩ := L
  unfold view ino
  dsimp only
  induction names with
  | nil => rfl
  | cons e r ih =>
    simp only [List.map_cons, FS.get, List.find?_cons]
    by_cases h : e.1 = p
    · simp [h]
    · simp only [h, if_false, decide_false]
      exact ih

theorem ino_mem {i : Nat} (h : L.ino p = some i) : (p, i) ∈ L.names := by
  unfold ino at h
  cases hf : L.names.find? (fun e => e.1 = p) with
  | none => rw [hf] at h; cases h
  | some e =>
    rw [hf] at h
    have h1 := List.find?_some hf
    have h2 := List.mem_of_find?_eq_some hf
    simp only [Option.map_some, Option.some.injEq] at h
    simp only [decide_eq_true_eq] at h1
    rw [← h, ← h1]
    exact h2

theorem mem_ino {i : Nat} (hd : L.view.keys.Nodup) (h : (p, i) ∈ L.names) : L.ino p = some i := by
  rw [view_keys] at hd
  cases hi : L.ino p with
  | none =>
    unfold ino at hi
    simp only [Option.map_eq_none_iff, List.find?_eq_none] at hi
    have := hi _ h
    simp at this
  | some j =>
    have hj := ino_mem hi
    have := List.inj_on_of_nodup_map hd h hj rfl
    simp only [Prod.mk.injEq] at this
    rw [this.2]

theorem get_mem {i : Nat} (hd : L.view.keys.Nodup) (h : (p, i) ∈ L.names) : L.view.get p = some (L.files i) := by rw [get_view, mem_ino hd h]; rfl

theorem lt_fresh {i : Nat} (h : (p, i) ∈ L.names) : i < L.fresh := by
  unfold fresh
  have : ∀ l : List Nat, i ∈ l → i ≤ l.foldr max 0 := by
    intro l
    induction l with
    | nil => simp
    | cons a l ih =>
      intro hm
      rcases List.mem_cons.1 hm with rfl | hm
      · exact Nat.le_max_left _ _
      · exact (ih hm).trans (Nat.le_max_right _ _)
  have := this (L.names.map Prod.snd) (List.mem_map.2 ⟨_, h, rfl⟩)
  omega

theorem view_del (L : Links) (p : Path) : (L.del p).view = L.view.del p := by
  unfold del view FS.del
  dsimp only
  rw [List.filter_map]
  rfl

theorem view_create {n : Node} (h : L.view.get p = none) : (L.create p n).view = L.view.set p n := by
  rw [FS.set_absent n h]
  unfold create view
  dsimp only
  rw [List.map_append]
  congr 1
  · refine List.map_congr_left (fun e he => ?_)
    rw [if_neg (Nat.ne_of_lt (lt_fresh (p := e.1) he))]
  · simp

/-- The name is the only one of its file. -/
def Sole (L : Links) (p : Path) : Prop := ∀ i q, (p, i) ∈ L.names → (q, i) ∈ L.names → q = p

theorem view_change {n : Node} (hd : L.view.keys.Nodup) (hs : L.Sole p) (h : L.view.get p ≠ none) : (L.change p n).view = L.view.set p n := by
  rw [FS.set_present n hd h]
  unfold change
  cases hi : L.ino p with
  | none => rw [get_view, hi] at h; exact absurd rfl h
  | some k =>
    have hk := ino_mem hi
    unfold view
    dsimp only
    rw [List.map_map]
    refine List.map_congr_left (fun e he => ?_)
    simp only [Function.comp]
    by_cases he1 : e.1 = p
    · rw [if_pos he1]
      have : e.2 = k := by
        have h1 : (p, e.2) ∈ L.names := by rw [← he1]; exact he
        have h2 := mem_ino hd h1
        rw [hi] at h2
        cases h2
        rfl
      rw [if_pos this, he1]
    · rw [if_neg he1, if_neg]
      intro h2
      exact he1 (hs k e.1 hk (by rw [← h2]; exact he))

theorem view_moveTree (L : Links) (a b : Path) : (L.moveTree a b).view = L.view.moveTree a b := by
  unfold moveTree view FS.moveTree
  dsimp only
  rw [List.filter_map, List.map_map, List.map_map]
  refine List.map_congr_left (fun e _ => ?_)
  simp only [Function.comp]
  split <;> rfl

theorem view_keep {left : FS} {f : Path → Bool} (h : left = L.view.filter (fun e => f e.1)) : (L.keep left).view = left := by
  rw [h]
  unfold keep view
  dsimp only
  rw [List.filter_map]
  congr 1
  refine List.filter_congr (fun e he => ?_)
  rw [Bool.eq_iff_iff, List.any_eq_true]
  simp only [Function.comp]
  constructor
  · rintro ⟨x, hx, hxe⟩
    obtain ⟨y, hy, rfl⟩ := List.mem_map.1 hx
    simp only [decide_eq_true_eq] at hxe
    have := (List.mem_filter.1 hy).2
    simp only [Function.comp] at this
    rw [← hxe]
    exact this
  · intro hf
    exact ⟨(e.1, L.files e.2), List.mem_map.2 ⟨e, List.mem_filter.2 ⟨he, hf⟩, rfl⟩, by simp⟩

/-! ### the system calls -/

theorem view_unlink (L : Links) (p : Path) : (L.unlink p).map view = L.view.unlink p := by
  unfold unlink FS.unlink
  cases L.view.canon p with
  | error e => rfl
  | ok c =>
    dsimp only
    cases L.view.get c with
    | none => rfl
    | some n =>
      dsimp only
      split
      · rfl
      · simp only [Except.map, view_del]

theorem view_rmdir (L : Links) (p : Path) : (L.rmdir p).map view = L.view.rmdir p := by
  unfold rmdir FS.rmdir
  cases L.view.canon p with
  | error e => rfl
  | ok c =>
    dsimp only
    cases L.view.get c with
    | none => rfl
    | some n =>
      dsimp only
      iterate 4 (split; · rfl)
      simp only [Except.map, view_del]

theorem view_mkdir (L : Links) (p : Path) : (L.mkdir p).map view = L.view.mkdir p := by
  unfold mkdir FS.mkdir
  cases L.view.canon p with
  | error e => rfl
  | ok c =>
    dsimp only
    cases h : L.view.get c with
    | some n => rfl
    | none => simp only [Except.map, view_create h]

theorem view_symlink (L : Links) (t : Str) (p : Path) : (L.symlink t p).map view = L.view.symlink t p := by
  unfold symlink FS.symlink
  cases L.view.canon p with
  | error e => rfl
  | ok c =>
    dsimp only
    cases h : L.view.get c with
    | some n => rfl
    | none => simp only [Except.map, view_create h]

theorem view_writeFile {d : Str} {m : Nat} (h0 : ∀ c, L.view.canon p = .ok c → L.view.get c = none) : (L.writeFile p d m).map view = L.view.writeFile p d m := by
  unfold writeFile FS.writeFile
  cases hc : L.view.canon p with
  | error e => rfl
  | ok c =>
    have := h0 c hc
    dsimp only
    rw [this]
    simp only [Except.map, view_create this]

theorem view_chown {u g : Nat} (hd : L.view.keys.Nodup) (hs : ∀ c, L.view.canon p = .ok c → L.Sole c) : (L.chown p u g).map view = L.view.chown p u g := by
  unfold chown FS.chown
  cases hc : L.view.canon p with
  | error e => rfl
  | ok c =>
    dsimp only
    cases h : L.view.get c with
    | none => rfl
    | some n => simp only [Except.map, view_change hd (hs c hc) (by rw [h]; exact Option.some_ne_none _)]

theorem view_chmod {m : Nat} (hd : L.view.keys.Nodup) (hs : ∀ c, L.view.canon p = .ok c → L.Sole c) : (L.chmod p m).map view = L.view.chmod p m := by
  unfold chmod FS.chmod
  cases hc : L.view.canon p with
  | error e => rfl
  | ok c =>
    dsimp only
    cases h : L.view.get c with
    | none => rfl
    | some n =>
      dsimp only
      split
      · rfl
      · simp only [Except.map, view_change hd (hs c hc) (by rw [h]; exact Option.some_ne_none _)]

/-- The two names, if different, are not names of one file. -/
def Differ (L : Links) (a b : Path) : Prop := a ≠ b → ∀ i, (a, i) ∈ L.names → (b, i) ∈ L.names → False

theorem view_rename (hs : ∀ a b, L.view.canon p = .ok a → L.view.canon q = .ok b → L.Differ a b) : (L.rename p q).map view = L.view.rename p q := by
  unfold rename FS.rename
  cases hp : L.view.canon p with
  | error e => rfl
  | ok a =>
    dsimp only
    cases hq : L.view.canon q with
    | error e => rfl
    | ok b =>
      dsimp only
      cases hn : L.view.get a with
      | none => rfl
      | some n =>
        dsimp only
        by_cases hab : a = b
        · rw [if_pos hab, if_pos hab]; rfl
        rw [if_neg hab, if_neg hab]
        split
        · rfl
        split
        · rfl
        rw [if_neg]
        · split
          · rfl
          split
          · rfl
          split
          · rfl
          cases L.view.get b with
          | none => simp only [Except.map, view_moveTree]
          | some m =>
            dsimp only
            split
            · split
              · split
                · rfl
                split
                · rfl
                simp only [Except.map, view_moveTree]
              · rfl
            · split
              · rfl
              simp only [Except.map, view_moveTree]
        · intro he
          cases hi : L.ino a with
          | none => rw [get_view, hi] at hn; cases hn
          | some i => exact hs a b hp hq hab i (ino_mem hi) (ino_mem (he ▸ hi))

/-! ### directories have one name -/

/-- A directory has one name only. -/
def DirsSole (L : Links) : Prop := ∀ p q i, (p, i) ∈ L.names → (q, i) ∈ L.names → (L.files i).isDir = true → p = q

theorem DirsSole.del (h : L.DirsSole) (p : Path) : (L.del p).DirsSole := by
  intro x y i hx hy hd
  exact h x y i (List.mem_filter.1 hx).1 (List.mem_filter.1 hy).1 hd

theorem mem_create {n : Node} {i : Nat} : (q, i) ∈ (L.create p n).names ↔ (q, i) ∈ L.names ∨ (q = p ∧ i = L.fresh) := by
  unfold create
  simp

theorem sole_create {n : Node} (h : L.view.get p = none) : (L.create p n).Sole p := by
  intro i q hp hq
  rw [mem_create] at hp hq
  rcases hp with hp | ⟨_, rfl⟩
  · exfalso
    have : p ∈ L.view.keys := by rw [view_keys]; exact List.mem_map.2 ⟨_, hp, rfl⟩
    rw [FS.get_none_iff] at h
    exact h this
  · rcases hq with hq | ⟨rfl, _⟩
    · exact absurd rfl (Nat.ne_of_lt (lt_fresh hq))
    · rfl

theorem DirsSole.create (h : L.DirsSole) (p : Path) (n : Node) : (L.create p n).DirsSole := by
  intro x y i hx hy hd
  rw [mem_create] at hx hy
  rcases hx with hx | ⟨rfl, rfl⟩
  · rcases hy with hy | ⟨rfl, rfl⟩
    · refine h x y i hx hy ?_
      unfold Links.create at hd
      dsimp only at hd
      rwa [if_neg (Nat.ne_of_lt (lt_fresh hx))] at hd
    · exact absurd rfl (Nat.ne_of_lt (lt_fresh hx))
  · rcases hy with hy | ⟨rfl, _⟩
    · exact absurd rfl (Nat.ne_of_lt (lt_fresh hy))
    · rfl

theorem change_names (L : Links) (p : Path) (n : Node) : (L.change p n).names = L.names := by
  unfold change; split <;> rfl

theorem DirsSole.change (h : L.DirsSole) {p : Path} {n m : Node} (hm : L.view.get p = some m) (hk : n.isDir = m.isDir) : (L.change p n).DirsSole := by
  intro x y i hx hy hd
  rw [change_names] at hx hy
  refine h x y i hx hy ?_
  unfold Links.change at hd
  rw [get_view] at hm
  cases hi : L.ino p with
  | none => rw [hi] at hm; cases hm
  | some k =>
    rw [hi] at hd hm
    simp only [Option.map_some, Option.some.injEq] at hm
    dsimp only at hd
    split at hd
    · rename_i hik
      rw [hik, hm, ← hk]
      exact hd
    · exact hd

theorem not_prefix_of_bool {a b : Path} (h : (!a.isPrefixOf b) = true) : ¬ a <+: b := by
  rw [← List.isPrefixOf_iff_prefix]
  intro h'
  rw [h'] at h
  cases h

theorem bool_of_not_prefix {a b : Path} (h : ¬ a <+: b) : (!a.isPrefixOf b) = true := by
  cases h' : a.isPrefixOf b with
  | true => exact absurd (List.isPrefixOf_iff_prefix.1 h') h
  | false => rfl

theorem mem_moveTree {a b : Path} {i : Nat} : (q, i) ∈ (L.moveTree a b).names ↔
    (∃ x, (x, i) ∈ L.names ∧ ¬ b <+: x ∧ a <+: x ∧ q = b ++ x.drop a.length) ∨ ((q, i) ∈ L.names ∧ ¬ b <+: q ∧ ¬ a <+: q) := by
  unfold moveTree
  dsimp only
  rw [List.mem_map]
  constructor
  · rintro ⟨⟨x, j⟩, hx, he⟩
    rw [List.mem_filter] at hx
    obtain ⟨hx, hb0⟩ := hx
    have hb : ¬ b <+: x := not_prefix_of_bool hb0
    clear hb0
    split at he
    · rename_i ha
      rw [List.isPrefixOf_iff_prefix] at ha
      cases he
      exact Or.inl ⟨x, hx, hb, ha, rfl⟩
    · rename_i ha
      rw [List.isPrefixOf_iff_prefix] at ha
      cases he
      exact Or.inr ⟨hx, hb, ha⟩
  · rintro (⟨x, hx, hb, ha, rfl⟩ | ⟨hx, hb, ha⟩)
    · refine ⟨(x, i), List.mem_filter.2 ⟨hx, ?_⟩, ?_⟩
      · exact bool_of_not_prefix hb
      · rw [← List.isPrefixOf_iff_prefix] at ha
        simp only [ha, if_true]
    · refine ⟨(q, i), List.mem_filter.2 ⟨hx, ?_⟩, ?_⟩
      · exact bool_of_not_prefix hb
      · rw [← List.isPrefixOf_iff_prefix] at ha
        simp only [ha]
        rfl

theorem DirsSole.moveTree (h : L.DirsSole) (a b : Path) : (L.moveTree a b).DirsSole := by
  intro x y i hx hy hd
  have hd : (L.files i).isDir = true := hd
  rw [mem_moveTree] at hx hy
  rcases hx with ⟨x', hx, _, hax, rfl⟩ | ⟨hx, _, hax⟩
  · rcases hy with ⟨y', hy, _, _, rfl⟩ | ⟨hy, _, hay⟩
    · rw [h x' y' i hx hy hd]
    · exact absurd (h x' y i hx hy hd ▸ hax) hay
  · rcases hy with ⟨y', hy, _, hay, rfl⟩ | ⟨hy, _, _⟩
    · exact absurd (h x y' i hx hy hd ▸ hay) hax
    · exact h x y i hx hy hd

/-- What a system call that succeeds does to one path. -/
inductive Step (L : Links) (p : Path) : Links → Prop where
  | same : Step L p L
  | del : Step L p (L.del p)
  | create (n : Node) : L.view.get p = none → Step L p (L.create p n)
  | change (n m : Node) : L.view.get p = some m → n.isDir = m.isDir → Step L p (L.change p n)

theorem Step.dirs {L' : Links} (h : Step L p L') (hs : L.DirsSole) : L'.DirsSole := by
  cases h with
  | same => exact hs
  | del => exact hs.del p
  | create n _ => exact hs.create p n
  | change n m hm hk => exact hs.change hm hk

theorem Step.names {L' : Links} (h : Step L p L') {i : Nat} (hq : q ≠ p) : (q, i) ∈ L'.names ↔ (q, i) ∈ L.names := by
  cases h with
  | same => exact Iff.rfl
  | del =>
    refine ⟨fun h => (List.mem_filter.1 h).1, fun h => List.mem_filter.2 ⟨h, ?_⟩⟩
    simpa using hq
  | create n _ =>
    rw [mem_create]
    exact ⟨fun h => h.resolve_right (fun h => hq h.1), Or.inl⟩
  | change n m _ _ => rw [change_names]

section
variable (hN : NormalPath p) (hl : L.view.NoLinkAbove p) {L' : Links}
include hN hl

theorem unlink_is (h : L.unlink p = .ok L') : L' = L.del p := by
  unfold unlink at h
  cases hc : L.view.canon p with
  | error e => rw [hc] at h; cases h
  | ok c =>
    rw [hc, FS.canon_nolink hN hl hc] at h
    dsimp only at h
    split at h
    · cases h
    · split at h
      · cases h
      · cases h; rfl

theorem rmdir_is (h : L.rmdir p = .ok L') : L' = L.del p := by
  unfold rmdir at h
  cases hc : L.view.canon p with
  | error e => rw [hc] at h; cases h
  | ok c =>
    rw [hc, FS.canon_nolink hN hl hc] at h
    dsimp only at h
    split at h
    · cases h
    · iterate 4 (split at h; · cases h)
      cases h; rfl

theorem mkdir_is (h : L.mkdir p = .ok L') : ∃ n, L.view.get p = none ∧ L' = L.create p n := by
  unfold mkdir at h
  cases hc : L.view.canon p with
  | error e => rw [hc] at h; cases h
  | ok c =>
    rw [hc, FS.canon_nolink hN hl hc] at h
    dsimp only at h
    split at h
    · cases h
    · cases h; exact ⟨_, by assumption, rfl⟩

theorem symlink_is {t : Str} (h : L.symlink t p = .ok L') : ∃ n, L.view.get p = none ∧ L' = L.create p n := by
  unfold symlink at h
  cases hc : L.view.canon p with
  | error e => rw [hc] at h; cases h
  | ok c =>
    rw [hc, FS.canon_nolink hN hl hc] at h
    dsimp only at h
    split at h
    · cases h
    · cases h; exact ⟨_, by assumption, rfl⟩

theorem writeFile_is {d : Str} {m : Nat} (h : L.writeFile p d m = .ok L') : Step L p L' ∧ (L.view.get p = none → ∃ n, L' = L.create p n ∧ n.isDir = false) := by
  unfold writeFile at h
  cases hc : L.view.canon p with
  | error e => rw [hc] at h; cases h
  | ok c =>
    rw [hc, FS.canon_nolink hN hl hc] at h
    dsimp only at h
    split at h
    · rename_i h0
      cases h
      exact ⟨.create _ h0, fun _ => ⟨_, rfl, rfl⟩⟩
    · rename_i n h0
      split at h
      · rename_i hk
        cases h
        refine ⟨.change _ n h0 ?_, fun hno => ?_⟩
        · simp [Node.isDir, hk]
        · rw [hno] at h0; cases h0
      all_goals cases h

theorem chown_is {u g : Nat} (h : L.chown p u g = .ok L') : ∃ n m, L.view.get p = some m ∧ n.isDir = m.isDir ∧ L' = L.change p n := by
  unfold chown at h
  cases hc : L.view.canon p with
  | error e => rw [hc] at h; cases h
  | ok c =>
    rw [hc, FS.canon_nolink hN hl hc] at h
    dsimp only at h
    split at h
    · cases h
    · rename_i n h0
      cases h
      refine ⟨_, n, h0, ?_, rfl⟩
      rfl

theorem chmod_is {u : Nat} (h : L.chmod p u = .ok L') : ∃ n m, L.view.get p = some m ∧ n.isDir = m.isDir ∧ L' = L.change p n := by
  unfold chmod at h
  cases hc : L.view.canon p with
  | error e => rw [hc] at h; cases h
  | ok c =>
    rw [hc, FS.canon_nolink hN hl hc] at h
    dsimp only at h
    split at h
    · cases h
    · rename_i n h0
      split at h
      · cases h
      cases h
      refine ⟨_, n, h0, ?_, rfl⟩
      rfl

theorem rename_is (hN' : NormalPath q) (hl' : L.view.NoLinkAbove q) (h : L.rename p q = .ok L') :
    (L' = L ∧ (p = q ∨ L.ino p = L.ino q)) ∨ (L' = L.moveTree p q ∧ ¬ q <+: p ∧ ¬ p <+: q) := by
  unfold rename at h
  cases hc : L.view.canon p with
  | error e => rw [hc] at h; cases h
  | ok c =>
  cases hc' : L.view.canon q with
  | error e => rw [hc, hc'] at h; cases h
  | ok c' =>
    rw [hc, hc', FS.canon_nolink hN hl hc, FS.canon_nolink hN' hl' hc'] at h
    dsimp only at h
    cases hg : L.view.get p with
    | none => rw [hg] at h; cases h
    | some n =>
    rw [hg] at h
    dsimp only at h
    by_cases h1 : p = q
    · rw [if_pos h1] at h; cases h; exact Or.inl ⟨rfl, Or.inl h1⟩
    rw [if_neg h1] at h
    by_cases h2 : p = [] ∨ q = []
    · rw [if_pos h2] at h; cases h
    rw [if_neg h2] at h
    by_cases h3 : L.view.devOf p.dropLast ≠ L.view.devOf q.dropLast
    · rw [if_pos h3] at h; cases h
    rw [if_neg h3] at h
    by_cases h4 : L.ino p = L.ino q
    · rw [if_pos h4] at h; cases h; exact Or.inl ⟨rfl, Or.inr h4⟩
    rw [if_neg h4] at h
    by_cases hpq : p.isPrefixOf q = true
    · rw [if_pos hpq] at h; cases h
    rw [if_neg hpq] at h
    by_cases hqp : q.isPrefixOf p = true
    · rw [if_pos hqp] at h; cases h
    rw [if_neg hqp] at h
    rw [List.isPrefixOf_iff_prefix] at hpq hqp
    refine Or.inr ⟨?_, hqp, hpq⟩
    by_cases h5 : (n.isDir && L.view.mountPoint p) = true
    · rw [if_pos h5] at h; cases h
    rw [if_neg h5] at h
    cases hm : L.view.get q with
    | none => rw [hm] at h; cases h; rfl
    | some m =>
      rw [hm] at h
      dsimp only at h
      by_cases h6 : n.isDir = true
      · rw [if_pos h6] at h
        by_cases h7 : m.isDir = true
        · rw [if_pos h7] at h
          by_cases h8 : L.view.mountPoint q = true
          · rw [if_pos h8] at h; cases h
          rw [if_neg h8] at h
          by_cases h9 : L.view.hasChild q = true
          · rw [if_pos h9] at h; cases h
          rw [if_neg h9] at h
          cases h; rfl
        · rw [if_neg h7] at h; cases h
      · rw [if_neg h6] at h
        by_cases h7 : m.isDir = true
        · rw [if_pos h7] at h; cases h
        · rw [if_neg h7] at h; cases h; rfl

end

end Links

/-! ### recursive removal only removes names -/

def Thins (a b : FS) : Prop := ∃ f : Path → Bool, b = a.filter (fun e => f e.1)

theorem Thins.refl (a : FS) : Thins a a := ⟨fun _ => true, (List.filter_eq_self.2 (fun _ _ => rfl)).symm⟩
theorem Thins.trans {a b c : FS} (h1 : Thins a b) (h2 : Thins b c) : Thins a c := by
  obtain ⟨f, rfl⟩ := h1
  obtain ⟨g, rfl⟩ := h2
  refine ⟨fun p => f p && g p, ?_⟩
  rw [List.filter_filter]
  refine List.filter_congr (fun e _ => ?_)
  rw [Bool.and_comm]
theorem Thins.del (a : FS) (p : Path) : Thins a (a.del p) := ⟨fun q => decide (q ≠ p), rfl⟩

theorem thins_unlink {a b : FS} {p : Path} (h : a.unlink p = .ok b) : Thins a b := by
  unfold FS.unlink at h
  split at h
  · cases h
  · split at h
    · cases h
    · split at h
      · cases h
      · cases h; exact Thins.del _ _

theorem thins_rmdir {a b : FS} {p : Path} (h : a.rmdir p = .ok b) : Thins a b := by
  unfold FS.rmdir at h
  split at h
  · cases h
  · split at h
    · cases h
    · iterate 4 (split at h; · cases h)
      cases h
      exact Thins.del _ _

theorem thins_entries {fault : Fault} {rec : FS → Path → FS × Option RmErr} (hr : ∀ fs p, Thins fs (rec fs p).1) {d : Nat} : ∀ {qs : List Path} {fs : FS}, Thins fs (rmEntries fault rec d qs fs).1 := by
  intro qs
  induction qs with
  | nil => intro fs; exact Thins.refl _
  | cons q qs ih =>
    intro fs
    simp only [rmEntries]
    split
    · exact Thins.refl _
    · split
      · exact Thins.refl _
      · split
        · have := hr fs q
          split
          · rename_i fs' he
            rw [he] at this
            exact this.trans ih
          · rename_i fs' e he
            rw [he] at this
            exact this
        · split
          · rename_i fs' he
            refine Thins.trans ?_ ih
            unfold faulty at he
            split at he
            · cases he
            · exact thins_unlink he
          · exact Thins.refl _

theorem thins_rec (fault : Fault) : ∀ (n : Nat) (fs : FS) (p : Path), Thins fs (rmdirRecN fault n fs p).1 := by
  intro n
  induction n with
  | zero => intro fs p; exact Thins.refl _
  | succ n ih =>
    intro fs p
    simp only [rmdirRecN]
    split
    · exact Thins.refl _
    · rename_i d _
      split
      · exact Thins.refl _
      · have h := thins_entries (fault := fault) ih (d := d.dev) (qs := fs.children p) (fs := fs)
        split
        · rename_i fs' e he
          rw [he] at h
          exact h
        · rename_i fs' he
          rw [he] at h
          split
          · rename_i fs'' he2
            refine h.trans ?_
            unfold faulty at he2
            split at he2
            · cases he2
            · exact thins_rmdir he2
          · exact h

/-! ### operations -/

/-- The operation does not write a file through one of several names. -/
def Fine (op : Op) (L : Links) : Prop :=
  match op with
  | .cp _ t => ∀ c, L.view.canon t = .ok c → L.view.get c = none
  | .chown p _ _ => ∀ c, L.view.canon p = .ok c → L.Sole c
  | .chmod p _ => ∀ c, L.view.canon p = .ok c → L.Sole c
  | .mv p q => ∀ a b, L.view.canon p = .ok a → L.view.canon q = .ok b → L.Differ a b
  | _ => True

theorem lift_links {S : LinkState} {x : Except Errno Links} {y : Except Errno FS} (h : x.map Links.view = y) : liftLower S.view y = ((liftLinks S x).1.view, (liftLinks S x).2) := by
  subst h
  cases x <;> rfl

theorem exec_links {op : Op} {S : LinkState} (hd : S.lower.view.keys.Nodup) (hf : Fine op S.lower) : exec op S.view = ((execLinks op S).1.view, (execLinks op S).2) := by
  cases op with
  | rm p => exact lift_links (Links.view_unlink _ _)
  | rmdir p => exact lift_links (Links.view_rmdir _ _)
  | mv p q => exact lift_links (Links.view_rename hf)
  | chown p u g => exact lift_links (Links.view_chown hd hf)
  | chmod p m => exact lift_links (Links.view_chmod hd hf)
  | cp s t =>
    simp only [exec, execLinks, LinkState.view]
    cases S.upper.view.get s with
    | none => rfl
    | some n =>
      dsimp only
      cases n.kind
      case reg d => exact lift_links (S := S) (Links.view_writeFile hf)
      all_goals rfl
  | rmIfExists p =>
    simp only [exec, execLinks, LinkState.view]
    split
    · rename_i h; rw [h]; exact lift_links (S := S) (Links.view_unlink _ _)
    · rename_i h; rw [h]
    · rename_i e he h
      rw [h]
      split
      · rename_i h2; cases h2
      · rename_i h2; cases h2; exact absurd rfl he
      · rename_i h2; cases h2; rfl
  | ln s p =>
    simp only [exec, execLinks, LinkState.view]
    cases S.upper.view.get s with
    | none => rfl
    | some n =>
      dsimp only
      cases n.kind
      case lnk d => exact lift_links (S := S) (Links.view_symlink _ _ _)
      all_goals rfl
  | mkdirIfNeeded p =>
    simp only [exec, execLinks]
    rw [show S.view.lower = S.lower.view from rfl]
    by_cases h : S.lower.view.pisDir p = true
    · rw [if_pos h, if_pos h]
    · rw [if_neg h, if_neg h]
      exact lift_links (S := S) (Links.view_mkdir _ _)
  | clean p =>
    simp only [exec, execLinks, LinkState.view]
    cases S.upper.view.get p with
    | none => rfl
    | some n =>
      dsimp only
      split
      · obtain ⟨f, hf⟩ := thins_rec (fun _ => none) (S.upper.view.length + 1) S.upper.view p
        have hk := Links.view_keep hf
        unfold rmdirRecursive rmdirRecursiveF
        cases hr : rmdirRecN (fun _ => none) (S.upper.view.length + 1) S.upper.view p with
        | mk up e =>
          rw [hr] at hk
          dsimp only at hk
          cases e <;> simp only [hk]
      · have hu := Links.view_unlink S.upper p
        rw [← hu]
        cases S.upper.unlink p <;> rfl


theorem links_lift {S S' : LinkState} {x : Except Errno Links} {e : Option AccErr} (h : liftLinks S x = (S', e)) :
    (∃ L, x = .ok L ∧ S' = { S with lower := L } ∧ e = none) ∨ (S' = S ∧ e ≠ none) := by
  cases x with
  | error a =>
    cases h
    exact Or.inr ⟨rfl, Option.some_ne_none _⟩
  | ok L =>
    cases h
    exact Or.inl ⟨L, rfl, rfl, rfl⟩

theorem links_run {S S' : LinkState} {x : Except Errno Links} (h : liftLinks S x = (S', none)) : ∃ L, x = .ok L ∧ S' = { S with lower := L } := by
  rcases links_lift h with ⟨L, h1, h2, _⟩ | ⟨_, h⟩
  · exact ⟨L, h1, h2⟩
  · exact absurd rfl h

/-- What an operation does to the names of the host. -/
def OpStep (op : Op) (L L' : Links) : Prop :=
  match op with
  | .mv a b => L' = L ∨ L' = L.moveTree a b
  | .clean _ => L' = L
  | _ => ∃ p, op.paths = [p] ∧ Links.Step L p L'

theorem execLinks_step {op : Op} {S : LinkState} (hp : ∀ x ∈ op.paths, NormalPath x ∧ S.lower.view.NoLinkAbove x) : OpStep op S.lower (execLinks op S).1.lower := by
  have lift : ∀ (p : Path) (x : Except Errno Links), (∀ L, x = .ok L → Links.Step S.lower p L) → Links.Step S.lower p (liftLinks S x).1.lower := by
    intro p x hx
    cases x with
    | error e => exact .same
    | ok L => exact hx L rfl
  cases op with
  | rm p =>
    obtain ⟨hN, hl⟩ := hp p (by simp [Op.paths])
    exact ⟨p, rfl, lift p _ (fun L h => Links.unlink_is hN hl h ▸ .del)⟩
  | rmdir p =>
    obtain ⟨hN, hl⟩ := hp p (by simp [Op.paths])
    exact ⟨p, rfl, lift p _ (fun L h => Links.rmdir_is hN hl h ▸ .del)⟩
  | mv a b =>
    obtain ⟨hN, hl⟩ := hp a (by simp [Op.paths])
    obtain ⟨hN', hl'⟩ := hp b (by simp [Op.paths])
    simp only [execLinks]
    cases hx : S.lower.rename a b with
    | error e => exact Or.inl rfl
    | ok L =>
      rcases Links.rename_is hN hl hN' hl' hx with ⟨rfl, _⟩ | ⟨rfl, _⟩
      · exact Or.inl rfl
      · exact Or.inr rfl
  | chown p u g =>
    obtain ⟨hN, hl⟩ := hp p (by simp [Op.paths])
    refine ⟨p, rfl, lift p _ (fun L h => ?_)⟩
    obtain ⟨n, m, h1, h2, rfl⟩ := Links.chown_is hN hl h
    exact .change n m h1 h2
  | chmod p u =>
    obtain ⟨hN, hl⟩ := hp p (by simp [Op.paths])
    refine ⟨p, rfl, lift p _ (fun L h => ?_)⟩
    obtain ⟨n, m, h1, h2, rfl⟩ := Links.chmod_is hN hl h
    exact .change n m h1 h2
  | cp s p =>
    obtain ⟨hN, hl⟩ := hp p (by simp [Op.paths])
    refine ⟨p, rfl, ?_⟩
    simp only [execLinks]
    cases S.upper.view.get s with
    | none => exact .same
    | some n =>
      dsimp only
      cases n.kind
      case reg d => exact lift p _ (fun L h => (Links.writeFile_is hN hl h).1)
      all_goals exact .same
  | rmIfExists p =>
    obtain ⟨hN, hl⟩ := hp p (by simp [Op.paths])
    refine ⟨p, rfl, ?_⟩
    simp only [execLinks]
    split
    · exact lift p _ (fun L h => Links.unlink_is hN hl h ▸ .del)
    · exact .same
    · exact .same
  | ln s p =>
    obtain ⟨hN, hl⟩ := hp p (by simp [Op.paths])
    refine ⟨p, rfl, ?_⟩
    simp only [execLinks]
    cases S.upper.view.get s with
    | none => exact .same
    | some n =>
      dsimp only
      cases n.kind
      case lnk d =>
        refine lift p _ (fun L h => ?_)
        obtain ⟨n, h1, rfl⟩ := Links.symlink_is hN hl h
        exact .create n h1
      all_goals exact .same
  | mkdirIfNeeded p =>
    obtain ⟨hN, hl⟩ := hp p (by simp [Op.paths])
    refine ⟨p, rfl, ?_⟩
    simp only [execLinks]
    split
    · exact .same
    · refine lift p _ (fun L h => ?_)
      obtain ⟨n, h1, rfl⟩ := Links.mkdir_is hN hl h
      exact .create n h1
  | clean p =>
    simp only [execLinks, OpStep]
    cases S.upper.view.get p with
    | none => rfl
    | some n =>
      dsimp only
      split
      · cases rmdirRecursive S.upper.view p with
        | mk up e => cases e <;> rfl
      · cases S.upper.unlink p <;> rfl

theorem OpStep.dirs {op : Op} {L L' : Links} (h : OpStep op L L') (hs : L.DirsSole) : L'.DirsSole := by
  cases op with
  | mv a b => rcases h with rfl | rfl; exacts [hs, hs.moveTree a b]
  | clean p => exact (show L' = L from h) ▸ hs
  | _ => obtain ⟨_, _, h⟩ := h; exact h.dirs hs

theorem OpStep.names {op : Op} {L L' : Links} (h : OpStep op L L') {q : Path} {i : Nat} (hq : ¬ op.region q) : (q, i) ∈ L'.names ↔ (q, i) ∈ L.names := by
  cases op with
  | mv a b =>
    rcases h with rfl | rfl
    · exact Iff.rfl
    · simp only [Op.region, not_or] at hq
      rw [Links.mem_moveTree]
      constructor
      · rintro (⟨x, hx, hb, ha, rfl⟩ | ⟨hx, _⟩)
        · exact absurd (List.prefix_append _ _) hq.2
        · exact hx
      · exact fun h => Or.inr ⟨h, hq.2, hq.1⟩
  | clean p => exact (show L' = L from h) ▸ Iff.rfl
  | _ =>
    obtain ⟨p, hp, h⟩ := h
    refine h.names (fun he => hq ?_)
    rw [he]
    simp only [Op.paths, List.cons.injEq, and_true] at hp
    simp [Op.region, Op.paths, hp]

/-! ### runs -/

/-- The operation leaves the paths `Q` alone: they are outside its region, or it moves a file that is no directory (nothing lies below such a file or its new place). -/
def Calm (Q : Path → Prop) (op : Op) (fs : FS) : Prop :=
  ∀ q, Q q → ¬ op.region q ∨ ∃ a b n, op = .mv a b ∧ fs.get a = some n ∧ n.isDir = false ∧ q ≠ a ∧ q ≠ b

/-- No operation of the run writes a file through one of several names, or concerns `Q`. -/
def FineRun (Q : Path → Prop) : List Op → LinkState → Prop
  | [], _ => True
  | op :: ops, S => (Fine op S.lower ∧ Calm Q op S.lower.view) ∧ ∀ S1, execLinks op S = (S1, none) → FineRun Q ops S1

theorem calm_names {Q : Path → Prop} {op : Op} {S : LinkState} (hw : S.lower.view.WF) (hp : ∀ x ∈ op.paths, NormalPath x ∧ S.lower.view.NoLinkAbove x) (hc : Calm Q op S.lower.view) {q : Path} (hq : Q q) (i : Nat) :
    (q, i) ∈ (execLinks op S).1.lower.names ↔ (q, i) ∈ S.lower.names := by
  rcases hc q hq with h | ⟨a, b, n, rfl, hn, hnd, hqa, hqb⟩
  · exact (execLinks_step hp).names h
  obtain ⟨hN, hl⟩ := hp a (by simp [Op.paths])
  obtain ⟨hN', hl'⟩ := hp b (by simp [Op.paths])
  simp only [execLinks]
  cases hx : S.lower.rename a b with
  | error e => exact Iff.rfl
  | ok L =>
    rcases Links.rename_is hN hl hN' hl' hx with ⟨rfl, _⟩ | ⟨rfl, hba, hab⟩
    · exact Iff.rfl
    · simp only [liftLinks]
      have below : ∀ {x y : Path} {j : Nat}, (y, j) ∈ S.lower.names → x <+: y → y ≠ x → S.lower.view.isDirAt x = true := by
        intro x y j hy hxy hne
        have hk : y ∈ S.lower.view.keys := by rw [Links.view_keys]; exact List.mem_map.2 ⟨_, hy, rfl⟩
        cases hg : S.lower.view.get x with
        | none =>
          have := hw.none_below hg (below_iff.2 ⟨hxy, fun h => hne h.symm⟩)
          rw [FS.get_none_iff] at this
          exact absurd hk this
        | some m =>
          cases hm : m.isDir with
          | true => unfold FS.isDirAt; rw [hg]; exact hm
          | false =>
            have := hw.no_child hg hm (below_iff.2 ⟨hxy, fun h => hne h.symm⟩)
            rw [FS.get_none_iff] at this
            exact absurd hk this
      have hda : S.lower.view.isDirAt a = false := by unfold FS.isDirAt; rw [hn]; exact hnd
      -- a directory is not replaced by a file
      have hdb : S.lower.view.isDirAt b = false := by
        cases hd : S.lower.view.isDirAt b with
        | false => rfl
        | true =>
          exfalso
          unfold FS.isDirAt at hd
          cases hg : S.lower.view.get b with
          | none => rw [hg] at hd; cases hd
          | some m =>
            rw [hg] at hd
            dsimp only at hd
            unfold Links.rename at hx
            cases hc1 : S.lower.view.canon a with
            | error e => rw [hc1] at hx; cases hx
            | ok c =>
            cases hc2 : S.lower.view.canon b with
            | error e => rw [hc1, hc2] at hx; cases hx
            | ok c' =>
              rw [hc1, hc2, FS.canon_nolink hN hl hc1, FS.canon_nolink hN' hl' hc2] at hx
              dsimp only at hx
              rw [hn, hg] at hx
              dsimp only at hx
              have e1 : a ≠ b := by rintro rfl; exact hab (List.prefix_refl _)
              rw [if_neg e1] at hx
              by_cases h2 : a = [] ∨ b = []
              · rw [if_pos h2] at hx; cases hx
              rw [if_neg h2] at hx
              by_cases h3 : S.lower.view.devOf a.dropLast ≠ S.lower.view.devOf b.dropLast
              · rw [if_pos h3] at hx; cases hx
              rw [if_neg h3] at hx
              by_cases h4 : S.lower.ino a = S.lower.ino b
              · have g1 := Links.get_view S.lower a
                have g2 := Links.get_view S.lower b
                rw [h4, ← g2, hn, hg] at g1
                cases g1
                rw [hnd] at hd
                cases hd
              rw [if_neg h4] at hx
              by_cases h5 : a.isPrefixOf b = true
              · rw [if_pos h5] at hx; cases hx
              rw [if_neg h5] at hx
              by_cases h6 : b.isPrefixOf a = true
              · rw [if_pos h6] at hx; cases hx
              rw [if_neg h6] at hx
              rw [hnd, hd] at hx
              simp at hx
      rw [Links.mem_moveTree]
      constructor
      · rintro (⟨x, hx, _, hax, rfl⟩ | ⟨h, _⟩)
        · exfalso
          by_cases hxa : x = a
          · subst hxa
            exact hqb (by simp)
          · rw [below hx hax hxa] at hda
            cases hda
        · exact h
      · intro h
        refine Or.inr ⟨h, fun hb => ?_, fun ha => ?_⟩
        · rw [below h hb hqb] at hdb; cases hdb
        · rw [below h ha hqa] at hda; cases hda

theorem fineRun_append {Q : Path → Prop} {x y : List Op} {S : LinkState} (h : FineRun Q x S) (h' : ∀ S1, runLinks x S = (S1, none) → FineRun Q y S1) : FineRun Q (x ++ y) S := by
  induction x generalizing S with
  | nil => exact h' S rfl
  | cons op ops ih =>
    refine ⟨h.1, fun S1 hx => ih (h.2 S1 hx) (fun S2 h2 => h' S2 ?_)⟩
    simp only [runLinks, hx]
    exact h2

/-- Seen under its names, a run is the run of accept; directories keep one name; names elsewhere keep their file. -/
theorem run_links {P Q : Path → Prop} : ∀ {ops : List Op} {S : LinkState}, S.lower.view.WF → S.lower.DirsSole → ApartRun P ops S.view → FineRun Q ops S →
    run ops S.view = ((runLinks ops S).1.view, (runLinks ops S).2) ∧ (runLinks ops S).1.lower.DirsSole ∧ (runLinks ops S).1.lower.view.WF ∧
    ∀ q, Q q → ∀ i, (q, i) ∈ (runLinks ops S).1.lower.names ↔ (q, i) ∈ S.lower.names := by
  intro ops
  induction ops with
  | nil => intro S hw hd _ _; exact ⟨rfl, hd, hw, fun _ _ _ => Iff.rfl⟩
  | cons op ops ih =>
    intro S hw hd hap hf
    have hx := exec_links hw.nodup hf.1.1
    have hs := execLinks_step (S := S) hap.1.plain
    have hn := fun q hq i => calm_names (q := q) hw hap.1.plain hf.1.2 hq i
    have hw1 : (execLinks op S).1.lower.view.WF := by
      have := (exec_step (st := S.view) hw hap.1.plain).wf
      rw [hx] at this
      exact this
    simp only [run, runLinks, hx]
    cases he : execLinks op S with
    | mk S1 e =>
      rw [he] at hs hw1 hn
      cases e with
      | some e => exact ⟨rfl, hs.dirs hd, hw1, hn⟩
      | none =>
        dsimp only
        obtain ⟨h1, h2, h3, h4⟩ := ih hw1 (hs.dirs hd) (hap.2 S1.view (by rw [hx, he])) (hf.2 S1 he)
        exact ⟨h1, h2, h3, fun q hq i => (h4 q hq i).trans (hn q hq i)⟩

theorem fineRun_take {Q : Path → Prop} : ∀ {ops : List Op} {S : LinkState} (k : Nat), FineRun Q ops S → FineRun Q (ops.take k) S := by
  intro ops
  induction ops with
  | nil => intro S k _; rw [List.take_nil]; trivial
  | cons op ops ih =>
    intro S k h
    cases k with
    | zero => trivial
    | succ k => exact ⟨h.1, fun S1 hx => ih k (h.2 S1 hx)⟩

end SB
