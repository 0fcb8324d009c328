import Verif.FS
import Verif.Lib.PathLemmas

/-! Helper lemmas about the file-system model (proof machinery). -/

namespace SB
namespace FS

theorem get_set (fs : FS) (p q : Path) (n : Node) :
    (fs.set p n).get q = if p = q then some n else fs.get q := by
  induction fs with
  | nil => simp only [set, get]
  | cons e r ih =>
    obtain ⟨k, m⟩ := e
    by_cases h : k = p
    · subst h; simp only [set, if_pos, get]; by_cases h2 : k = q <;> simp [h2]
    · simp only [set, if_neg h, get, ih]
      by_cases h2 : k = q
      · subst h2; simp [Ne.symm h]
      · simp [h2]

theorem get_del (fs : FS) (p q : Path) :
    (fs.del p).get q = if p = q then none else fs.get q := by
  induction fs with
  | nil => simp [del, get]
  | cons e r ih =>
    obtain ⟨k, m⟩ := e
    simp only [del] at ih ⊢
    by_cases h : k = p
    · subst h
      simp only [ne_eq, List.filter_cons, not_true_eq_false, decide_false, Bool.false_eq_true,
        if_false, ih, get]
      by_cases h2 : k = q <;> simp [h2]
    · simp only [ne_eq, List.filter_cons, h, not_false_eq_true, decide_true, if_true, get, ih]
      by_cases h2 : k = q
      · subst h2; simp [Ne.symm h]
      · simp [h2]

theorem mem_keys {fs : FS} {p : Path} : p ∈ fs.keys ↔ ∃ n, fs.get p = some n := by
  induction fs with
  | nil => simp [keys, get]
  | cons e r ih =>
    obtain ⟨k, m⟩ := e
    simp only [keys] at ih
    simp only [keys, List.map_cons, List.mem_cons, get]
    by_cases h : k = p
    · simp [h]
    · simp only [h, if_false, ← ih]; simp [Ne.symm h]

theorem mem_of_get {fs : FS} {p : Path} {n : Node} (h : fs.get p = some n) : (p, n) ∈ fs := by
  induction fs with
  | nil => simp [get] at h
  | cons e r ih =>
    obtain ⟨k, m⟩ := e
    simp only [get] at h
    by_cases hk : k = p
    · subst hk; simp at h; subst h; exact List.mem_cons_self
    · simp [hk] at h; exact List.mem_cons_of_mem _ (ih h)

theorem get_of_mem {fs : FS} (hn : fs.keys.Nodup) {p : Path} {n : Node} (h : (p, n) ∈ fs) :
    fs.get p = some n := by
  induction fs with
  | nil => simp at h
  | cons e r ih =>
    obtain ⟨k, m⟩ := e
    simp only [keys, List.map_cons, List.nodup_cons] at hn
    simp only [get]
    rcases List.mem_cons.1 h with h | h
    · cases h; simp
    · have : k ≠ p := by
        rintro rfl; exact hn.1 (List.mem_map.2 ⟨_, h, rfl⟩)
      simp [this, ih hn.2 h]

theorem get_none_iff {fs : FS} {p : Path} : fs.get p = none ↔ p ∉ fs.keys := by
  rw [mem_keys]; cases fs.get p <;> simp

theorem keys_set_nodup {fs : FS} (h : fs.keys.Nodup) (p : Path) (n : Node) : (fs.set p n).keys.Nodup := by
  induction fs with
  | nil => simp [set, keys]
  | cons e r ih =>
    obtain ⟨k, m⟩ := e
    simp only [keys, List.map_cons, List.nodup_cons] at h
    by_cases hk : k = p
    · subst hk; simpa [set, keys] using h
    · simp only [set, if_neg hk, keys, List.map_cons, List.nodup_cons]
      refine ⟨?_, ih h.2⟩
      intro hm
      have : k ∈ FS.keys (FS.set r p n) := hm
      rw [mem_keys] at this
      obtain ⟨x, hx⟩ := this
      rw [get_set] at hx
      by_cases hpk : p = k
      · exact hk hpk.symm
      · rw [if_neg hpk] at hx
        exact h.1 (mem_keys.2 ⟨x, hx⟩)

theorem keys_del_nodup {fs : FS} (h : fs.keys.Nodup) (p : Path) : (fs.del p).keys.Nodup := by
  unfold keys del at *
  exact List.Nodup.sublist (List.Sublist.map _ List.filter_sublist) h

theorem isDirAt_iff {fs : FS} {p : Path} : fs.isDirAt p = true ↔ ∃ n, fs.get p = some n ∧ n.isDir = true := by
  unfold isDirAt; cases fs.get p <;> simp

theorem hasChild_iff {fs : FS} {p : Path} : fs.hasChild p = true ↔ ∃ q n, Below p q ∧ fs.get q = some n := by
  unfold hasChild
  rw [List.any_eq_true]
  constructor
  · rintro ⟨⟨q, n⟩, hm, h⟩
    simp only [Bool.and_eq_true, List.isPrefixOf_iff_prefix, bne_iff_ne, ne_eq] at h
    obtain ⟨m, hm'⟩ := mem_keys.1 (List.mem_map.2 ⟨_, hm, rfl⟩ : q ∈ fs.keys)
    exact ⟨q, m, below_iff.2 ⟨h.1, fun e => h.2 e.symm⟩, hm'⟩
  · rintro ⟨q, n, hb, hg⟩
    refine ⟨(q, n), mem_of_get hg, ?_⟩
    simp only [Bool.and_eq_true, List.isPrefixOf_iff_prefix, bne_iff_ne, ne_eq]
    exact ⟨hb.prefix, fun e => hb.ne e.symm⟩

/-- In a well-formed tree every proper ancestor of an existing node is a directory. -/
theorem WF.ancestor {fs : FS} (h : fs.WF) {p q : Path} {n : Node} (hg : fs.get p = some n)
    (hb : Below q p) : fs.isDirAt q = true := by
  obtain ⟨r, hr, rfl⟩ := hb
  induction r using List.reverseRecOn generalizing n with
  | nil => exact absurd rfl hr
  | append_singleton r x ih =>
    have hp := h.parent (q ++ (r ++ [x])) (mem_keys.2 ⟨n, hg⟩) (by simp)
    rw [← List.append_assoc, List.dropLast_concat] at hp
    by_cases hr' : r = []
    · subst hr'; simpa using hp
    · obtain ⟨m, hm, _⟩ := isDirAt_iff.1 hp
      exact ih hr' hm

theorem WF.normal_of_get {fs : FS} (h : fs.WF) {p : Path} {n : Node} (hg : fs.get p = some n) : NormalPath p :=
  h.normal p (mem_keys.2 ⟨n, hg⟩)

theorem WF.no_child {fs : FS} (h : fs.WF) {p q : Path} {n : Node} (hg : fs.get p = some n)
    (hd : n.isDir = false) (hb : Below p q) : fs.get q = none := by
  cases hq : fs.get q with
  | none => rfl
  | some m =>
    have := h.ancestor hq hb
    rw [isDirAt_iff] at this
    obtain ⟨x, hx, hx'⟩ := this
    rw [hg] at hx; cases hx; rw [hd] at hx'; cases hx'

theorem WF.none_below {fs : FS} (h : fs.WF) {p q : Path} (hg : fs.get p = none) (hb : Below p q) :
    fs.get q = none := by
  cases hq : fs.get q with
  | none => rfl
  | some m =>
    obtain ⟨x, hx, _⟩ := isDirAt_iff.1 (h.ancestor hq hb)
    rw [hg] at hx; cases hx

/-! ### resolution along directories -/

/-- Every proper prefix of `p` (including the root) is a directory. -/
def Chain (fs : FS) (p : Path) : Prop := ∀ q, Below q p → fs.isDirAt q = true

theorem WF.chain {fs : FS} (h : fs.WF) {p : Path} {n : Node} (hg : fs.get p = some n) : fs.Chain p :=
  fun _ hq => h.ancestor hg hq

theorem walk_dirs (fs : FS) (ol) (todo : Path) : ∀ (cur : Path),
    NormalPath todo → (∀ r, r <+: todo → fs.isDirAt (cur ++ r) = true) →
    ∀ rest, fs.walk ol cur (todo ++ rest) = fs.walk ol (cur ++ todo) rest := by
  induction todo with
  | nil => intro cur _ _ rest; simp
  | cons c t ih =>
    intro cur hn hd rest
    have h0 := hd [] (List.nil_prefix)
    rw [List.append_nil, isDirAt_iff] at h0
    obtain ⟨d, hd0, hdd⟩ := h0
    have h1 := hd [c] (by simp)
    rw [isDirAt_iff] at h1
    obtain ⟨m, hm, hmd⟩ := h1
    have hc := hn c (by simp)
    have := ih (cur ++ [c]) (fun n hn' => hn n (by simp [hn']))
      (fun r hr => by
        have := hd (c :: r) (by simpa using hr)
        simpa using this) rest
    have hk : m.kind = .dir := by simpa [Node.isDir] using hmd
    simp only [List.cons_append, walk, hd0, hdd, if_true, hc.2.2.2, if_false, hm, hk]
    rw [this]; simp

theorem resolveN_dirs (fs : FS) (n : Nat) (p : Path) (hn : NormalPath p)
    (hd : ∀ r, r <+: p → fs.isDirAt r = true) : fs.resolveN n [] p = .ok p := by
  have key : ∀ ol, fs.walk ol [] p = .ok p := by
    intro ol
    have := walk_dirs fs ol p [] hn (by simpa using hd) []
    simpa [walk] using this
  cases n <;> exact key _

theorem realpath_dirs (fs : FS) (p : Path) (hn : NormalPath p)
    (hd : ∀ r, r <+: p → fs.isDirAt r = true) : fs.realpath p = .ok p :=
  resolveN_dirs fs 40 p hn hd

theorem canon_chain {fs : FS} {p : Path} (hn : NormalPath p) (hc : fs.Chain p) : fs.canon p = .ok p := by
  unfold canon
  rcases List.eq_nil_or_concat p with rfl | ⟨d, l, rfl⟩
  · rfl
  · rw [List.concat_eq_append] at *
    rw [List.getLast?_concat, List.dropLast_concat]
    have hd : ∀ r, r <+: d → fs.isDirAt r = true := fun r hr =>
      hc r (below_of_prefix_below hr ⟨[l], by simp, rfl⟩)
    simp only []
    rw [realpath_dirs fs d hn.of_append_left hd]
    simp [hd d (List.prefix_refl d)]

theorem WF.canon_get {fs : FS} (h : fs.WF) {p : Path} {n : Node} (hg : fs.get p = some n) :
    fs.canon p = .ok p := canon_chain (h.normal_of_get hg) (h.chain hg)

theorem lstat_chain {fs : FS} {p : Path} (hn : NormalPath p) (hc : fs.Chain p) :
    fs.lstat p = match fs.get p with | none => .error .ENOENT | some n => .ok n := by
  unfold lstat; rw [canon_chain hn hc]; rfl

/-- With a chain of directories above it, `realpath p` is decided by the node at `p`. -/
theorem realpath_chain {fs : FS} {p : Path} (hn : NormalPath p) (hr : fs.isDirAt [] = true)
    (hc : fs.Chain p) (hl : ∀ n, fs.get p = some n → n.isLnk = false) :
    fs.realpath p = match fs.get p with | none => .error .ENOENT | some _ => .ok p := by
  rcases List.eq_nil_or_concat p with rfl | ⟨d, l, rfl⟩
  · obtain ⟨m, hm, _⟩ := isDirAt_iff.1 hr
    rw [hm]; rfl
  · rw [List.concat_eq_append] at *
    have hd : ∀ r, r <+: d → fs.isDirAt r = true := fun r hr =>
      hc r (below_of_prefix_below hr ⟨[l], by simp, rfl⟩)
    have hln := hn l (by simp)
    obtain ⟨dn, hdn, hdd⟩ := isDirAt_iff.1 (hd d (List.prefix_refl d))
    have key : ∀ ol, fs.walk ol [] (d ++ [l]) =
        match fs.get (d ++ [l]) with | none => .error .ENOENT | some _ => .ok (d ++ [l]) := by
      intro ol
      rw [walk_dirs fs ol d [] hn.of_append_left (by simpa using hd) [l]]
      simp only [List.nil_append, walk, hdn, hdd, if_true, hln.2.2.2, if_false]
      cases hg : fs.get (d ++ [l]) with
      | none => rfl
      | some m =>
        have := hl m hg
        simp only
        cases hk : m.kind with
        | lnk t => simp [Node.isLnk, Kind.isLnk, hk] at this
        | _ => simp
    exact key _

theorem stat_chain {fs : FS} {p : Path} (hn : NormalPath p) (hr : fs.isDirAt [] = true)
    (hc : fs.Chain p) (hl : ∀ n, fs.get p = some n → n.isLnk = false) :
    fs.stat p = match fs.get p with | none => .error .ENOENT | some n => .ok n := by
  unfold stat; rw [realpath_chain hn hr hc hl]
  cases hg : fs.get p with
  | none => rfl
  | some n => simp [hg]

/-! ### moving subtrees -/

theorem get_moveTree (fs : FS) {a b : Path} (hab : ¬ a <+: b) (hba : ¬ b <+: a) (q : Path) :
    (fs.moveTree a b).get q =
      if b <+: q then fs.get (a ++ q.drop b.length)
      else if a <+: q then none else fs.get q := by
  have disj : ∀ {k : Path}, a <+: k → b <+: k → False := fun h1 h2 => by
    rcases prefix_total h1 h2 with h | h
    · exact hab h
    · exact hba h
  induction fs with
  | nil => simp [moveTree, get]
  | cons e r ih =>
    obtain ⟨k, m⟩ := e
    simp only [moveTree, List.isPrefixOf_iff_prefix] at ih ⊢
    rw [List.filter_cons]
    by_cases hbk : b <+: k
    · have : (!b.isPrefixOf k) = false := by simpa using hbk
      simp only [this, Bool.false_eq_true, if_false, ih, get]
      by_cases hbq : b <+: q
      · rw [if_pos hbq, if_pos hbq]
        have hk : k ≠ a ++ q.drop b.length := fun h => disj ⟨_, h.symm⟩ hbk
        rw [if_neg hk]
      · rw [if_neg hbq, if_neg hbq]
        have : k ≠ q := by rintro rfl; exact hbq hbk
        rw [if_neg this]
    · have : (!b.isPrefixOf k) = true := by
        rw [Bool.not_eq_true', ← Bool.not_eq_true, List.isPrefixOf_iff_prefix]; exact hbk
      simp only [this, if_true, List.map_cons]
      by_cases hak : a <+: k
      · simp only [hak, if_true, get, ih]
        obtain ⟨t, rfl⟩ := hak
        simp only [List.drop_left]
        by_cases hbq : b <+: q
        · obtain ⟨u, rfl⟩ := hbq
          simp
        · have h1 : b ++ t ≠ q := fun h => hbq ⟨_, h⟩
          rw [if_neg h1, if_neg hbq, if_neg hbq]
          by_cases haq : a <+: q
          · rw [if_pos haq, if_pos haq]
          · rw [if_neg haq, if_neg haq]
            have : a ++ t ≠ q := fun h => haq ⟨_, h⟩
            rw [if_neg this]
      · simp only [hak, if_false, get, ih]
        by_cases hbq : b <+: q
        · have h1 : k ≠ q := by rintro rfl; exact hbk hbq
          have h2 : k ≠ a ++ q.drop b.length := fun h => hak ⟨_, h.symm⟩
          simp [hbq, h1, h2]
        · by_cases hkq : k = q
          · subst hkq; simp [hbk, hak]
          · simp [hbq, hkq]

theorem keys_moveTree_nodup {fs : FS} (h : fs.keys.Nodup) (a b : Path) :
    (fs.moveTree a b).keys.Nodup := by
  unfold moveTree keys at *
  rw [List.map_map]
  have h' : ((fs.filter (fun e => !b.isPrefixOf e.1)).map Prod.fst).Nodup :=
    List.Nodup.sublist (List.Sublist.map _ List.filter_sublist) h
  have hall : ∀ e ∈ fs.filter (fun e => !b.isPrefixOf e.1), ¬ b <+: e.1 := by
    intro e he
    have := (List.mem_filter.1 he).2
    rw [Bool.not_eq_true', ← Bool.not_eq_true, List.isPrefixOf_iff_prefix] at this
    exact this
  generalize fs.filter (fun e => !b.isPrefixOf e.1) = l at h' hall
  induction l with
  | nil => simp
  | cons e r ih =>
    obtain ⟨k, m⟩ := e
    simp only [List.map_cons, List.nodup_cons] at h' ⊢
    refine ⟨?_, ih h'.2 (fun e he => hall e (List.mem_cons_of_mem _ he))⟩
    intro hmem
    apply h'.1
    obtain ⟨⟨k2, m2⟩, hm2, heq⟩ := List.mem_map.1 hmem
    refine List.mem_map.2 ⟨(k2, m2), hm2, ?_⟩
    simp only [Function.comp, List.isPrefixOf_iff_prefix] at heq
    have hb1 := hall (k, m) (by simp)
    have hb2 := hall (k2, m2) (List.mem_cons_of_mem _ hm2)
    simp only at hb1 hb2 ⊢
    by_cases h1 : a <+: k <;> by_cases h2 : a <+: k2
    · obtain ⟨t, rfl⟩ := h1; obtain ⟨u, rfl⟩ := h2
      simp only [List.prefix_append, if_true, List.drop_left, List.append_cancel_left_eq] at heq
      rw [heq]
    · simp only [h1, h2, if_true, if_false] at heq
      exact absurd ⟨_, heq.symm⟩ hb2
    · simp only [h1, h2, if_true, if_false] at heq
      exact absurd ⟨_, heq⟩ hb1
    · simpa only [h1, h2, if_false] using heq

end FS
end SB
