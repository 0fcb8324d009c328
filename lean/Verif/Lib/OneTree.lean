import Verif.Model.OneTree
import Verif.Lib.RaceLemmas
import Verif.Lib.Clean

/-! Storage and host as one tree (proof machinery). -/

namespace SB

/-- Below `B` the tree `fs` is `u`. -/
def Has (B : Path) (fs u : FS) : Prop := ∀ q, fs.get (B ++ q) = u.get q

section
variable {B : Path} {fs u : FS}

theorem Has.isDirAt (h : Has B fs u) (q : Path) : fs.isDirAt (B ++ q) = u.isDirAt q := by unfold FS.isDirAt; rw [h q]
theorem Has.devOf (h : Has B fs u) (q : Path) : fs.devOf (B ++ q) = u.devOf q := by unfold FS.devOf; rw [h q]
theorem Has.mountPoint (h : Has B fs u) {p : Path} (hp : p ≠ []) : fs.mountPoint (B ++ p) = u.mountPoint p := by
  unfold FS.mountPoint; rw [List.dropLast_append_of_ne_nil hp, h.devOf, h.devOf]

theorem Has.hasChild (h : Has B fs u) (p : Path) : fs.hasChild (B ++ p) = u.hasChild p := by
  rw [Bool.eq_iff_iff, FS.hasChild_iff, FS.hasChild_iff]
  constructor
  · rintro ⟨q, n, ⟨r, hr, rfl⟩, hn⟩
    exact ⟨p ++ r, n, ⟨r, hr, rfl⟩, by rw [← h, ← List.append_assoc]; exact hn⟩
  · rintro ⟨q, n, ⟨r, hr, rfl⟩, hn⟩
    exact ⟨B ++ p ++ r, n, ⟨r, hr, rfl⟩, by rw [List.append_assoc, h]; exact hn⟩

theorem Has.walk (h : Has B fs u) (ol ol') (todo : Path) : ∀ cur : Path, NormalPath todo → (∀ r, r <+: todo → r ≠ [] → ∀ n, u.get (cur ++ r) = some n → n.isLnk = false) →
    fs.walk ol (B ++ cur) todo = (u.walk ol' cur todo).map (B ++ ·) := by
  induction todo with
  | nil => intro cur _ _; simp only [FS.walk]; rfl
  | cons x t ih =>
    intro cur hn hl
    have hx := hn x (by simp)
    simp only [FS.walk]
    rw [h cur]
    cases u.get cur with
    | none => rfl
    | some d =>
      simp only
      split
      · rw [if_neg hx.2.2.2, if_neg hx.2.2.2, List.append_assoc, h]
        cases hm : u.get (cur ++ [x]) with
        | none => rfl
        | some m =>
          have hml := hl [x] (by simp) (by simp) m hm
          have key := ih (cur ++ [x]) (fun n hn' => hn n (by simp [hn'])) (fun r hr hr0 n hg' => hl (x :: r) (by simpa using hr) (by simp) n (by simpa using hg'))
          unfold Node.isLnk at hml
          cases hk : m.kind <;> simp only [hk, Kind.isLnk] at hml ⊢ <;> first | exact key | cases hml
      · rfl

/-- The path of a file in the storage is resolved in the same way. -/
theorem Has.canon (h : Has B fs u) (hw : fs.WF) (hd : u.isDirAt [] = true) {p : Path} (hp : p ≠ []) (hN : NormalPath p) (hl : u.NoLinkAbove p) : fs.canon (B ++ p) = (u.canon p).map (B ++ ·) := by
  have hdB : fs.isDirAt B = true := by rw [← h.isDirAt [], List.append_nil] at hd; exact hd
  obtain ⟨nB, hB, _⟩ := FS.isDirAt_iff.1 hdB
  rcases List.eq_nil_or_concat p with rfl | ⟨d, l, rfl⟩
  · exact absurd rfl hp
  · rw [List.concat_eq_append] at *
    have hbel : ∀ r, r <+: d → Below r (d ++ [l]) := fun r hr => below_of_prefix_below hr ⟨[l], by simp, rfl⟩
    unfold FS.canon
    rw [← List.append_assoc]
    simp only [List.getLast?_append_of_ne_nil, List.getLast?_singleton, ne_eq, List.cons_ne_self, not_false_eq_true, List.dropLast_concat]
    have hr : fs.realpath (B ++ d) = (u.realpath d).map (B ++ ·) := by
      unfold FS.realpath
      show fs.walk _ [] (B ++ d) = (u.walk _ [] d).map _
      rw [FS.walk_dirs fs _ B [] (hw.normal_of_get hB) (fun r hr => by
        by_cases he : r = B
        · subst he; exact hdB
        · exact hw.ancestor hB (below_iff.2 ⟨hr, he⟩))]
      have := h.walk (fs.resolveN 39) (u.resolveN 39) d [] hN.of_append_left (fun r hr _ n hn => hl r (hbel r hr) n (by simpa using hn))
      simpa using this
    rw [hr]
    cases u.realpath d with
    | error e => rfl
    | ok c =>
      simp only [Except.map]
      rw [h.isDirAt]
      split <;> simp

theorem Has.del (h : Has B fs u) (p : Path) : Has B (fs.del (B ++ p)) (u.del p) := by
  intro q
  rw [FS.get_del, FS.get_del]
  by_cases hq : p = q
  · subst hq; rw [if_pos rfl, if_pos rfl]
  · rw [if_neg hq, if_neg (fun he => hq (List.append_cancel_left he)), h]

/-- A call on a file of the storage. -/
def SameAt (B : Path) (fs u : FS) (p : Path) (x y : Except Errno FS) : Prop := (∃ e, x = .error e ∧ y = .error e) ∨ (x = .ok (fs.del (B ++ p)) ∧ y = .ok (u.del p))

theorem Has.unlink (h : Has B fs u) (hw : fs.WF) (hu : u.WF) {p : Path} (hp : p ≠ []) (hN : NormalPath p) (hl : u.NoLinkAbove p) : SameAt B fs u p (fs.unlink (B ++ p)) (u.unlink p) := by
  unfold FS.unlink
  rw [h.canon hw hu.root hp hN hl]
  cases hc : u.canon p with
  | error e => exact Or.inl ⟨e, rfl, rfl⟩
  | ok c =>
    obtain rfl := FS.canon_nolink hN hl hc
    simp only [Except.map]
    rw [h]
    cases u.get c with
    | none => exact Or.inl ⟨_, rfl, rfl⟩
    | some n =>
      simp only
      split
      · exact Or.inl ⟨_, rfl, rfl⟩
      · exact Or.inr ⟨rfl, rfl⟩

theorem Has.rmdir (h : Has B fs u) (hw : fs.WF) (hu : u.WF) {p : Path} (hp : p ≠ []) (hN : NormalPath p) (hl : u.NoLinkAbove p) : SameAt B fs u p (fs.rmdir (B ++ p)) (u.rmdir p) := by
  unfold FS.rmdir
  rw [h.canon hw hu.root hp hN hl]
  cases hc : u.canon p with
  | error e => exact Or.inl ⟨e, rfl, rfl⟩
  | ok c =>
    obtain rfl := FS.canon_nolink hN hl hc
    simp only [Except.map]
    rw [h, h.mountPoint hp, h.hasChild, if_neg hp, if_neg (show ¬ B ++ c = [] by simp [hp])]
    cases u.get c with
    | none => exact Or.inl ⟨_, rfl, rfl⟩
    | some n =>
      simp only
      split
      · exact Or.inl ⟨_, rfl, rfl⟩
      · split
        · exact Or.inl ⟨_, rfl, rfl⟩
        · split
          · exact Or.inl ⟨_, rfl, rfl⟩
          · exact Or.inr ⟨rfl, rfl⟩

end

/-! ### clean-up -/

open Classical in
/-- Clean-up of one staged path, when it and everything below are on the device of the directory above. -/
theorem clean_local {st : State} {p : Path} {n : Node} (hw : st.upper.WF) (hp : p ≠ []) (hg : st.upper.get p = some n) (hdev : ∀ q m, p <+: q → st.upper.get q = some m → m.dev = n.dev)
    (hpar : ∀ m, st.upper.get p.dropLast = some m → m.dev = n.dev) :
    (exec (.clean p) st).2 = none ∧ (exec (.clean p) st).1.lower = st.lower ∧ (exec (.clean p) st).1.upper.WF ∧ ∀ q, (exec (.clean p) st).1.upper.get q = if p <+: q then none else st.upper.get q := by
  simp only [exec, hg]
  by_cases hd : n.isDir = true
  · rw [if_pos hd]
    have h1 := C53_stays_inside (fun _ => none) st.upper p n hw hg hp
    obtain ⟨h3, h4⟩ := C53_succeeds st.upper p n hw hg hd hp hdev hpar
    have heq : rmdirRecursiveF (fun _ => none) st.upper p = rmdirRecursive st.upper p := rfl
    rw [heq] at h1
    cases hr : rmdirRecursive st.upper p with
    | mk up y =>
      rw [hr] at h1 h3 h4
      simp only at h1 h3 h4
      subst h3
      exact ⟨rfl, rfl, h1.2.2.2, fun q => by rw [h4 q]⟩
  · rw [if_neg hd, hw.unlink_eq hg (by simpa using hd)]
    have hd' : n.isDir = false := by simpa using hd
    refine ⟨rfl, rfl, hw.del_nondir hg hd', fun q => ?_⟩
    show (st.upper.del p).get q = _
    rw [FS.get_del]
    by_cases hpq : p = q
    · rw [if_pos hpq, if_pos (hpq ▸ List.prefix_refl _)]
    · rw [if_neg hpq]
      split
      · next hpre => exact hw.no_child hg hd' (below_iff.2 ⟨hpre, hpq⟩)
      · rfl

/-! ### runs -/

/-- Two trees `a` and `u` for the one tree `fs`. -/
structure Sim (B : Path) (d : Nat) (a u fs : FS) : Prop where
  wa : a.WF
  wu : u.WF
  wf : fs.WF
  off : ∀ q, ¬ B <+: q → a.get q = fs.get q
  has : Has B fs u
  dev : ∀ q n, u.get q = some n → n.dev = d

theorem exec_at {op : Op} {B : Path} {low x y : FS} (hc : op.isClean = false) (h : Has B y x) :
    (exec (op.at B) ⟨low, y⟩).2 = (exec op ⟨low, x⟩).2 ∧ (exec (op.at B) ⟨low, y⟩).1.lower = (exec op ⟨low, x⟩).1.lower ∧ (exec op ⟨low, x⟩).1.upper = x := by
  have lift : ∀ z : Except Errno FS, (liftLower ⟨low, y⟩ z).2 = (liftLower ⟨low, x⟩ z).2 ∧ (liftLower ⟨low, y⟩ z).1.lower = (liftLower ⟨low, x⟩ z).1.lower ∧ (liftLower ⟨low, x⟩ z).1.upper = x := by
    intro z; unfold liftLower; cases z <;> exact ⟨rfl, rfl, rfl⟩
  cases op with
  | clean p => cases hc
  | rm p => exact lift _
  | rmdir p => exact lift _
  | mv a b => exact lift _
  | chown p u g => exact lift _
  | chmod p m => exact lift _
  | mkdirIfNeeded p =>
    simp only [Op.at, exec]
    split
    · exact ⟨rfl, rfl, rfl⟩
    · exact lift _
  | rmIfExists p =>
    simp only [Op.at, exec]
    split
    · exact lift _
    · exact ⟨rfl, rfl, rfl⟩
    · exact ⟨rfl, rfl, rfl⟩
  | cp s t =>
    simp only [Op.at, exec]
    rw [h s]
    cases x.get s with
    | none => exact ⟨rfl, rfl, rfl⟩
    | some n =>
      simp only
      cases n.kind
      case reg => exact lift _
      all_goals exact ⟨rfl, rfl, rfl⟩
  | ln s t =>
    simp only [Op.at, exec]
    rw [h s]
    cases x.get s with
    | none => exact ⟨rfl, rfl, rfl⟩
    | some n =>
      simp only
      cases n.kind
      case lnk => exact lift _
      all_goals exact ⟨rfl, rfl, rfl⟩

theorem execOne_other {op : Op} {B : Path} {fs : FS} (hc : op.isClean = false) : execOne B op fs = ((exec (op.at B) ⟨fs, fs⟩).1.lower, (exec (op.at B) ⟨fs, fs⟩).2) := by
  cases op <;> first | rfl | cases hc

/-- One operation: the same in both. -/
theorem Sim.step {B : Path} {d : Nat} {a u fs : FS} (h : Sim B d a u fs) {op : Op} (hap : Apart (B <+: ·) op a) (hcl : ∀ p, op = .clean p → p ≠ []) :
    (execOne B op fs).2 = (exec op ⟨a, u⟩).2 ∧ Sim B d (exec op ⟨a, u⟩).1.lower (exec op ⟨a, u⟩).1.upper (execOne B op fs).1 := by
  cases hc : op.isClean with
  | false =>
    obtain ⟨g1, g2, g3⟩ := exec_off (u := u) (fun q hq => h.off q hq) h.wa hap
    obtain ⟨e1, e2, e3⟩ := exec_at (low := fs) hc h.has
    obtain ⟨_, _, e4⟩ := exec_at (low := a) hc h.has
    have ha := exec_step (op := op) (st := ⟨a, u⟩) h.wa hap.plain
    have hf := exec_step (op := op) (st := ⟨fs, u⟩) h.wf (hap.other (fun q hq => h.off q hq))
    rw [execOne_other hc]
    refine ⟨e1.trans g3.symm, ?_⟩
    show Sim B d _ _ (exec (op.at B) ⟨fs, fs⟩).1.lower
    rw [e2, e4]
    exact ⟨ha.wf, h.wu, hf.wf, g1, fun q => by rw [hf.out _ (hap.region (List.prefix_append B q))]; exact h.has q, h.dev⟩
  | true =>
    cases op <;> simp [Op.isClean] at hc
    rename_i p
    have hp := hcl p rfl
    show (exec (.clean (B ++ p)) ⟨fs, fs⟩).2 = _ ∧ Sim B d _ _ (exec (.clean (B ++ p)) ⟨fs, fs⟩).1.upper
    cases hg : u.get p with
    | none =>
      have hg' : fs.get (B ++ p) = none := by rw [h.has, hg]
      simp only [exec, hg, hg']
      exact ⟨trivial, h⟩
    | some n =>
      have hn := h.dev p n hg
      obtain ⟨a1, a2, a3, a4⟩ := clean_local (st := ⟨a, u⟩) h.wu hp hg (fun q m _ hm => (h.dev q m hm).trans hn.symm) (fun m hm => (h.dev _ m hm).trans hn.symm)
      obtain ⟨b1, b2, b3, b4⟩ := clean_local (st := ⟨fs, fs⟩) (p := B ++ p) (n := n) h.wf (by simp [hp]) (by rw [← hg]; exact h.has p) (fun q m hq hm => by
          obtain ⟨r, rfl⟩ := hq
          have := h.has (p ++ r)
          rw [← List.append_assoc] at this
          exact (h.dev (p ++ r) m (by rw [← this]; exact hm)).trans hn.symm) (fun m hm => by
          rw [List.dropLast_append_of_ne_nil hp] at hm
          exact (h.dev p.dropLast m (by rw [← h.has]; exact hm)).trans hn.symm)
      refine ⟨b1.trans a1.symm, ?_⟩
      rw [a2]
      refine ⟨h.wa, a3, b3, fun q hq => ?_, fun q => ?_, fun q m hm => ?_⟩
      · rw [b4 q, if_neg (fun hx => hq ((List.prefix_append B p).trans hx))]; exact h.off q hq
      · rw [b4, a4]
        by_cases hq : p <+: q
        · rw [if_pos hq, if_pos ((List.prefix_append_right_inj B).2 hq)]
        · rw [if_neg hq, if_neg (fun hx => hq ((List.prefix_append_right_inj B).1 hx))]; exact h.has q
      · rw [a4] at hm
        split at hm
        · cases hm
        · exact h.dev q m hm

theorem Sim.run {B : Path} {d : Nat} {ops : List Op} : ∀ {a u fs : FS}, Sim B d a u fs → ApartRun (B <+: ·) ops ⟨a, u⟩ → (∀ op ∈ ops, ∀ p, op = .clean p → p ≠ []) →
    (runOne B ops fs).2 = (SB.run ops ⟨a, u⟩).2 ∧ Sim B d (SB.run ops ⟨a, u⟩).1.lower (SB.run ops ⟨a, u⟩).1.upper (runOne B ops fs).1 := by
  induction ops with
  | nil => intro a u fs h _ _; exact ⟨rfl, h⟩
  | cons op ops ih =>
    intro a u fs h hap hcl
    obtain ⟨h1, h2⟩ := h.step hap.1 (hcl op List.mem_cons_self)
    simp only [runOne, SB.run]
    cases hx : exec op ⟨a, u⟩ with
    | mk s e =>
      cases hy : execOne B op fs with
      | mk f e' =>
        rw [hx, hy] at h1 h2
        simp only at h1 h2
        subst h1
        cases e' with
        | none => exact ih h2 (hap.2 s hx) (fun op' ho => hcl op' (List.mem_cons_of_mem _ ho))
        | some e => exact ⟨rfl, h2⟩

theorem FS.get_filter (fs : FS) (f : Path → Bool) (q : Path) : FS.get (fs.filter (fun e => f e.1)) q = if f q = true then fs.get q else none := by
  induction fs with
  | nil => simp [FS.get]
  | cons x fs ih =>
    obtain ⟨k, n⟩ := x
    rw [List.filter_cons]
    by_cases hx : f k = true
    · simp only [hx, if_true, FS.get]
      by_cases hq : k = q
      · subst hq; simp [hx]
      · rw [if_neg hq, if_neg hq]; exact ih
    · simp only [hx, FS.get]
      by_cases hq : k = q
      · subst hq
        simp only [Bool.false_eq_true, if_false, hx] at ih ⊢
        exact ih
      · rw [if_neg hq]; exact ih

/-- Wherever accept is stopped on the one tree, it could have been stopped on the two trees, in the same state. -/
theorem Sim.crash {B : Path} {d : Nat} {ops : List Op} : ∀ {a u fs fs' : FS}, Sim B d a u fs → ApartRun (B <+: ·) ops ⟨a, u⟩ → (∀ op ∈ ops, ∀ p, op = .clean p → p ≠ []) → CrashOne B ops fs fs' →
    ∃ st', CrashState ops ⟨a, u⟩ st' ∧ (∀ q, ¬ B <+: q → st'.lower.get q = fs'.get q) ∧ Has B fs' st'.upper := by
  induction ops with
  | nil =>
    intro a u fs fs' h _ _ hc
    cases hc
    exact ⟨_, .here, h.off, h.has⟩
  | cons op ops ih =>
    intro a u fs fs' h hap hcl hc
    cases hc with
    | here => exact ⟨_, .here, h.off, h.has⟩
    | @copying s t _ _ st' hm =>
      cases hm with
      | @cp _ _ _ n c m fs1 hg hb hw =>
        have hg' : u.get s = some n := by rw [← h.has]; exact hg
        -- the half-written file is what a whole copy of another file would be
        let x : FS := [(s, { kind := .reg c, perm := m })]
        have hx : x.get s = some { kind := .reg c, perm := m } := FS.get_of_mem (by simp [x, FS.keys]) (by simp [x])
        have ex : ∀ low : FS, exec (.cp s t) ⟨low, x⟩ = liftLower ⟨low, x⟩ (low.writeFile t c m) := by
          intro low
          simp only [exec, hx]
        obtain ⟨g1, g2, g3⟩ := exec_off (u := x) (fun q hq => h.off q hq) h.wa hap.1
        have hf := exec_step (op := .cp s t) (st := ⟨fs, x⟩) h.wf (hap.1.other (fun q hq => h.off q hq))
        rw [ex, ex] at g1 g3
        rw [ex] at hf
        dsimp only at hw
        rw [hw] at g1 g3 hf
        cases hv : a.writeFile t c m with
        | error e => rw [hv] at g3; simp [liftLower] at g3
        | ok a' =>
          rw [hv] at g1
          exact ⟨_, .mid (.cp hg' hb hv), g1, fun q => by
            have := hf.out (B ++ q) (hap.1.region (List.prefix_append B q))
            exact this.trans (h.has q)⟩
    | @clearing p _ _ st' hm =>
      cases hm with
      | @clean _ _ keep hk =>
        refine ⟨⟨a, u.filter (fun e => keep (B ++ e.1))⟩, .mid (.clean (keep := fun q => keep (B ++ q)) (fun q hq => hk _ (fun hx => hq ((List.prefix_append_right_inj B).1 hx)))), fun q hq => ?_, fun q => ?_⟩
        · rw [FS.get_filter, if_pos (hk q (fun hx => hq ((List.prefix_append B p).trans hx)))]
          exact h.off q hq
        · rw [FS.get_filter, FS.get_filter u (fun q => keep (B ++ q)), h.has]
    | @failed _ _ _ _ e hx =>
      obtain ⟨h1, h2⟩ := h.step hap.1 (hcl op List.mem_cons_self)
      rw [hx] at h1 h2
      exact ⟨_, .failed (e := e) (Prod.ext rfl h1.symm), h2.off, h2.has⟩
    | @later _ _ _ f _ hx hc =>
      obtain ⟨h1, h2⟩ := h.step hap.1 (hcl op List.mem_cons_self)
      rw [hx] at h1 h2
      have he : exec op ⟨a, u⟩ = ((exec op ⟨a, u⟩).1, none) := Prod.ext rfl h1.symm
      obtain ⟨st', g1, g2, g3⟩ := ih h2 (hap.2 _ he) (fun op' ho => hcl op' (List.mem_cons_of_mem _ ho)) hc
      exact ⟨st', .later he g1, g2, g3⟩

end SB
