import Verif.Lib.LinksLemmas
import Verif.Props.Race
import Verif.Props.During

/-!
# C115: files with several names (hard links)
-/

namespace SB

/-! ### Specification -/

/-- Both are names of one file. -/
def Spec.SameFile (L : Links) (p q : Path) : Prop := ∃ i, (p, i) ∈ L.names ∧ (q, i) ∈ L.names

/-- No directory has two names. -/
def Spec.DirsOnce (L : Links) : Prop := ∀ p q, Spec.SameFile L p q → (∃ n, L.view.get p = some n ∧ Spec.ftype n.kind = .directory) → p = q

/-- Only directories are moved (overlayfs with `redirect_dir=on,metacopy=off` redirects nothing else, src/sandbox/mount_overlays.rs:85). -/
def Spec.MovesDirs (host : FS) (sel : List Entry) : Prop := ∀ s d, Spec.Renames sel s d → ∀ n, host.get s = some n → Spec.ftype n.kind = .directory

/-! ### Proofs -/

theorem pisDir_plain {fs : FS} {p : Path} (hN : NormalPath p) (hl : fs.NoLinkAbove p) (hp : ¬ fs.linkAt p) (h : fs.pisDir p = true) : ∃ n, fs.get p = some n ∧ n.isDir = true := by
  have hno : ∀ r, r <+: p → r ≠ [] → ∀ n, fs.get ([] ++ r) = some n → n.isLnk = false := by
    intro r hr _ n hn
    rw [List.nil_append] at hn
    by_cases h : r = p
    · subst h
      by_contra hx
      exact hp ⟨n, hn, by simpa using hx⟩
    · exact hl r (below_iff.2 ⟨hr, h⟩) n hn
  unfold FS.pisDir FS.stat at h
  cases hx : fs.realpath p with
  | error e => rw [hx] at h; cases h
  | ok c =>
    have : c = p := by
      have := FS.walk_nolink fs (fs.resolveN 39) p [] c hN hno hx
      simpa using this
    subst this
    rw [hx] at h
    dsimp only at h
    cases hg : fs.get c with
    | none => rw [hg] at h; cases h
    | some n => rw [hg] at h; exact ⟨n, rfl, h⟩

section
variable {P Q : Path → Prop}

theorem apartRun_left : ∀ {x y : List Op} {st : State}, ApartRun P (x ++ y) st → ApartRun P x st := by
  intro x
  induction x with
  | nil => intros; trivial
  | cons op x ih => intro y st h; exact ⟨h.1, fun st1 hx => ih (h.2 st1 hx)⟩

theorem apartRun_right : ∀ {x y : List Op} {st st1 : State}, ApartRun P (x ++ y) st → run x st = (st1, none) → ApartRun P y st1 := by
  intro x
  induction x with
  | nil => intro y st st1 h hr; cases hr; exact h
  | cons op x ih =>
    intro y st st1 h hr
    obtain ⟨s, hs, hr⟩ := run_cons hr
    exact ih (h.2 s hs) hr

/-- An operation that succeeds, seen under the names. -/
theorem step_links {op : Op} {S S1 : LinkState} (hw : S.lower.view.WF) (hd : S.lower.DirsSole) (hap : Apart P op S.lower.view) (hf : Fine op S.lower) (h : execLinks op S = (S1, none)) :
    exec op S.view = (S1.view, none) ∧ S1.lower.view.WF ∧ S1.lower.DirsSole := by
  have hx := exec_links hw.nodup hf
  have hs := execLinks_step (S := S) hap.plain
  have hw1 := (exec_step (st := S.view) hw hap.plain).wf
  rw [h] at hx hs
  rw [hx] at hw1
  exact ⟨hx, hw1, hs.dirs hd⟩

theorem fineRun_of : ∀ {ops : List Op} {S : LinkState}, S.lower.view.WF → S.lower.DirsSole → ApartRun P ops S.view →
    (∀ pre op post, ops = pre ++ op :: post → ∀ S1 : LinkState, run pre S.view = (S1.view, none) → S1.lower.DirsSole → Apart P op S1.lower.view → Fine op S1.lower ∧ Calm Q op S1.lower.view) → FineRun Q ops S := by
  intro ops
  induction ops with
  | nil => intros; trivial
  | cons op ops ih =>
    intro S hw hd hap h
    have hf := h [] op ops rfl S rfl hd hap.1
    refine ⟨hf, fun S1 hx => ?_⟩
    obtain ⟨h1, h2, h3⟩ := step_links hw hd hap.1 hf.1 hx
    refine ih h2 h3 (hap.2 S1.view h1) (fun pre o post he S2 hr hd2 ha2 => ?_)
    refine h (op :: pre) o post (by rw [he]; rfl) S2 ?_ hd2 ha2
    simp only [run, h1]
    exact hr

theorem fine_perm {S : LinkState} {d : Path} {n : Node} (hw : S.lower.view.WF) (hd : S.lower.DirsSole) (hap : ApartRun P (permOps d n) S.view) (hs : S.lower.Sole d) (hQ : ∀ q, Q q → q ≠ d) : FineRun Q (permOps d n) S := by
  unfold permOps at hap ⊢
  have plain : ∀ {L : Links} {c : Path}, NormalPath d ∧ L.view.NoLinkAbove d → L.view.canon d = .ok c → c = d := fun h hc => FS.canon_nolink h.1 h.2 hc
  have hf : Fine (.chown d n.uid n.gid) S.lower := by
    intro c hc
    rw [plain (hap.1.plain d (by simp [Op.paths])) hc]
    exact hs
  refine ⟨⟨hf, fun q hq => Or.inl (by simpa [Op.region, Op.paths] using hQ q hq)⟩, fun S1 hx => ?_⟩
  obtain ⟨h1, h2, h3⟩ := step_links hw hd hap.1 hf hx
  have hap2 := hap.2 S1.view h1
  split
  · trivial
  · rename_i hl
    rw [if_neg hl] at hap2
    refine ⟨⟨?_, fun q hq => Or.inl (by simpa [Op.region, Op.paths] using hQ q hq)⟩, fun _ _ => trivial⟩
    intro c hc
    rw [plain (hap2.1.plain d (by simp [Op.paths])) hc]
    simp only [execLinks] at hx
    obtain ⟨L, hL, rfl⟩ := links_run hx
    obtain ⟨m, m', _, _, rfl⟩ := Links.chown_is (hap.1.plain d (by simp [Op.paths])).1 (hap.1.plain d (by simp [Op.paths])).2 hL
    intro i q hp hq
    rw [Links.change_names] at hp hq
    exact hs i q hp hq

theorem fine_set {S : LinkState} {d t : Path} {s : Details} (hw : S.lower.view.WF) (hd : S.lower.DirsSole) (hap : ApartRun P (setOps d s t) S.view) (ht : S.lower.view.get t = none) (hne : t ≠ d) (hQ : ∀ q, Q q → q ≠ d ∧ q ≠ t) :
    FineRun Q (setOps d s t) S := by
  have hQd : ∀ q, Q q → q ≠ d := fun q hq => (hQ q hq).1
  have plain : ∀ {L : Links} {c d : Path}, NormalPath d ∧ L.view.NoLinkAbove d → L.view.canon d = .ok c → c = d := fun h hc => FS.canon_nolink h.1 h.2 hc
  unfold setOps at hap ⊢
  split
  · rename_i hreg
    rw [if_pos hreg] at hap
    have hf : Fine (.cp s.path t) S.lower := by
      intro c hc
      rw [plain (hap.1.plain t (by simp [Op.paths])) hc]
      exact ht
    refine ⟨⟨hf, fun q hq => Or.inl (by simpa [Op.region, Op.paths] using (hQ q hq).2)⟩, fun S1 hx => ?_⟩
    obtain ⟨h1, h2, h3⟩ := step_links hw hd hap.1 hf hx
    have hap1 := hap.2 S1.view h1
    obtain ⟨n, hn, hnd⟩ : ∃ n, S1.lower = S.lower.create t n ∧ n.isDir = false := by
      simp only [execLinks] at hx
      cases hu : S.upper.view.get s.path with
      | none => rw [hu] at hx; cases hx
      | some m =>
        rw [hu] at hx
        dsimp only at hx
        cases hk : m.kind <;> rw [hk] at hx <;> try (cases hx; done)
        obtain ⟨L, hL, rfl⟩ := links_run hx
        exact (Links.writeFile_is (hap.1.plain t (by simp [Op.paths])).1 (hap.1.plain t (by simp [Op.paths])).2 hL).2 ht
    have hgt : S1.lower.view.get t = some n := by rw [hn, Links.view_create ht, FS.get_set, if_pos rfl]
    have hfresh : ∀ i q, (q, i) ∈ S1.lower.names → i = S.lower.fresh → q = t := by
      intro i q hq hi
      rw [hn, Links.mem_create] at hq
      rcases hq with hq | ⟨h, _⟩
      · exact absurd hi (Nat.ne_of_lt (Links.lt_fresh hq))
      · exact h
    have htt : ∀ i, (t, i) ∈ S1.lower.names → i = S.lower.fresh := by
      intro i hi
      rw [hn, Links.mem_create] at hi
      rcases hi with hi | ⟨_, h⟩
      · exfalso
        rw [FS.get_none_iff, Links.view_keys] at ht
        exact ht (List.mem_map.2 ⟨_, hi, rfl⟩)
      · exact h
    have hdiff : S1.lower.Differ t d := by
      intro _ i hi hi'
      exact hne (hfresh i d hi' (htt i hi)).symm
    have hf1 : Fine (.mv t d) S1.lower := by
      intro a b ha hb
      rw [plain (hap1.1.plain t (by simp [Op.paths])) ha, plain (hap1.1.plain d (by simp [Op.paths])) hb]
      exact hdiff
    refine ⟨⟨hf1, fun q hq => Or.inr ⟨t, d, n, rfl, hgt, hnd, (hQ q hq).2, (hQ q hq).1⟩⟩, fun S2 hx2 => ?_⟩
    obtain ⟨g1, g2, g3⟩ := step_links h2 h3 hap1.1 hf1 hx2
    refine fine_perm g2 g3 (hap1.2 S2.view g1) ?_ hQd
    simp only [execLinks] at hx2
    obtain ⟨L, hL, rfl⟩ := links_run hx2
    have hin : (t, S.lower.fresh) ∈ S1.lower.names := by rw [hn, Links.mem_create]; exact Or.inr ⟨rfl, rfl⟩
    rcases Links.rename_is (hap1.1.plain t (by simp [Op.paths])).1 (hap1.1.plain t (by simp [Op.paths])).2 (hap1.1.plain d (by simp [Op.paths])).1 (hap1.1.plain d (by simp [Op.paths])).2 hL with ⟨_, h | h⟩ | ⟨rfl, hdt, htd⟩
    · exact absurd h hne
    · rw [Links.mem_ino h2.nodup hin] at h
      exact (hdiff hne _ hin (Links.ino_mem h.symm)).elim
    · intro i q hp hq
      have hi : i = S.lower.fresh := by
        rw [Links.mem_moveTree] at hp
        rcases hp with ⟨x, hx, _, htx, he⟩ | ⟨_, h, _⟩
        · have h0 : x.drop t.length = [] := by
            have := congrArg List.length he
            rw [List.length_append] at this
            exact List.length_eq_zero_iff.1 (by omega)
          obtain ⟨r, rfl⟩ := htx
          rw [List.drop_left] at h0
          rw [h0, List.append_nil] at hx
          exact htt i hx
        · exact absurd (List.prefix_refl _) h
      rw [Links.mem_moveTree] at hq
      rcases hq with ⟨x, hx, _, _, rfl⟩ | ⟨hx, _, h⟩
      · rw [hfresh i x hx hi]
        simp
      · rw [hfresh i q hx hi] at h
        exact absurd (List.prefix_refl _) h
  · rename_i hreg
    rw [if_neg hreg] at hap
    split
    · rename_i hlnk
      rw [if_pos hlnk] at hap
      refine ⟨⟨trivial, fun q hq => Or.inl (by simpa [Op.region, Op.paths] using hQd q hq)⟩, fun S1 hx => ?_⟩
      obtain ⟨h1, h2, h3⟩ := step_links hw hd hap.1 (show Fine _ _ from trivial) hx
      have hap1 := hap.2 S1.view h1
      refine ⟨⟨trivial, fun q hq => Or.inl (by simpa [Op.region, Op.paths] using hQd q hq)⟩, fun S2 hx2 => ?_⟩
      obtain ⟨g1, g2, g3⟩ := step_links h2 h3 hap1.1 (show Fine _ _ from trivial) hx2
      refine fine_perm g2 g3 (hap1.2 S2.view g1) ?_ hQd
      simp only [execLinks] at hx2
      cases hu : S1.upper.view.get s.path with
      | none => rw [hu] at hx2; cases hx2
      | some m =>
        rw [hu] at hx2
        dsimp only at hx2
        cases hk : m.kind <;> rw [hk] at hx2 <;> try (cases hx2; done)
        obtain ⟨L, hL, rfl⟩ := links_run hx2
        obtain ⟨n, hn, rfl⟩ := Links.symlink_is (hap1.1.plain d (by simp [Op.paths])).1 (hap1.1.plain d (by simp [Op.paths])).2 hL
        exact Links.sole_create hn
    · rename_i hlnk
      rw [if_neg hlnk] at hap
      refine ⟨⟨trivial, fun q hq => Or.inl (by simpa [Op.region, Op.paths] using hQd q hq)⟩, fun S1 hx => ?_⟩
      obtain ⟨h1, h2, h3⟩ := step_links hw hd hap.1 (show Fine _ _ from trivial) hx
      refine fine_perm h2 h3 (hap.2 S1.view h1) ?_ hQd
      obtain ⟨hN, hl⟩ := hap.1.plain d (by simp [Op.paths])
      simp only [execLinks] at hx
      split at hx
      · rename_i hdir
        cases hx
        obtain ⟨n, hn, hnd⟩ := pisDir_plain hN hl (hap.1.link d rfl) hdir
        intro i q hp hq
        rw [show S.view.lower = S.lower.view from rfl, Links.get_mem hw.nodup hp] at hn
        cases hn
        exact (hd d q i hp hq hnd).symm
      · obtain ⟨L, hL, rfl⟩ := links_run hx
        obtain ⟨n, hn, rfl⟩ := Links.mkdir_is hN hl hL
        exact Links.sole_create hn

end

section
variable {env : Env} {sel : List Entry} {host G : FS} {all : List Op} {P Q : Path → Prop}

theorem fineRun_A (hg : Good env host sel) (hp : PlainOps all G) : ∀ {l : List Entry} {i : Nat} {S : LinkState}, AList env S.view sel l → AInv env sel all G l S.lower.view →
    S.lower.DirsSole → ApartRun P (applyOps env i l) S.view → (∀ op ∈ applyOps env i l, op ∈ all) → (∀ e ∈ l, e.op = .rename → ∀ t, e.tmp = some t → ∀ n, G.get t = some n → n.isDir = true) →
    (∀ q, Q q → (∀ e ∈ l, Spec.IsSet e → q ≠ e.dest ∧ ∀ i, q ≠ copyTmp e.dest (env.uuidC i)) ∧ ∀ e ∈ l, e.op = .rename → ¬ e.dest <+: q ∧ ∀ t, e.tmp = some t → ¬ t <+: q) →
    FineRun Q (applyOps env i l) S := by
  intro l
  induction l with
  | nil => intros; trivial
  | cons e r ih =>
    intro i S ha hi hd hap hin hdir hQ
    rw [applyOps_cons] at hap ⊢
    have hin1 : ∀ op ∈ blockOps env i e, op ∈ all := fun op ho => hin op (by rw [applyOps_cons]; simp [ho])
    have hin2 : ∀ op ∈ applyOps env (i + 1) r, op ∈ all := fun op ho => hin op (by rw [applyOps_cons]; simp [ho])
    have hf := ha.fr e (by simp)
    have hapB := apartRun_left hap
    have hB : FineRun Q (blockOps env i e) S := by
      unfold blockOps at hapB hin1 ⊢
      cases ho : e.op with
      | set ty =>
        obtain ⟨s, hs, hsup, hup⟩ := ha.set e (by simp) ⟨ty, ho⟩
        simp only [ho, hs] at hapB hin1 ⊢
        obtain ⟨_, _, e0, h0, _, h2, _⟩ := dest_facts hg hf
        have ht : S.lower.view.get (copyTmp e.dest (env.uuidC i)) = none := hi.noCopy _ ⟨i, e0, h0, rfl⟩ _ (by rw [copyTmp_eq, h2]; simp)
        exact fine_set hi.wf hd hapB ht (slot_of hg hp hi hf hin1).ne (fun q hq => ⟨((hQ q hq).1 e (by simp) ⟨ty, ho⟩).1, ((hQ q hq).1 e (by simp) ⟨ty, ho⟩).2 i⟩)
      | rename =>
        obtain ⟨s, j, hs, ht⟩ := ha.ren e (by simp) ho
        simp only [ho, ht] at hapB ⊢
        refine ⟨⟨?_, fun q hq => Or.inl (fun h => h.elim (((hQ q hq).2 e (by simp) ho).2 _ ht) ((hQ q hq).2 e (by simp) ho).1)⟩, fun _ _ => trivial⟩
        intro a b hca hcb
        obtain ⟨hN, hl⟩ := hapB.1.plain (renameTmp env.cwd s.path e.dest (env.uuidR j)) (by simp [Op.paths])
        rw [FS.canon_nolink hN hl hca]
        intro hne k hk hk'
        refine hne (hd _ _ k hk hk' ?_)
        have h1 := hi.tmps e (by simp) ho _ ht []
        rw [List.append_nil] at h1
        obtain ⟨n, hn⟩ := hi.exist e (by simp) ho _ ht
        have h2 := hdir e (by simp) ho _ ht n (by rw [← h1]; exact hn)
        rw [Links.get_mem hi.wf.nodup hk] at hn
        cases hn
        exact h2
      | remove => simp only; trivial
      | error x => simp only; trivial
    refine fineRun_append hB (fun S1 hx => ?_)
    obtain ⟨h1, h2, h3, _⟩ := run_links hi.wf hd hapB hB
    rw [hx] at h1 h2 h3
    have hu1 : S1.view.upper = S.view.upper := by
      have := run_upper (blockOps_noClean env i e) S.view
      rw [h1] at this
      exact this
    exact ih (ha.tail hu1) (block_inv hg hp ha hi hin1 h1) h2 (apartRun_right hap h1) hin2 (fun e' he' => hdir e' (by simp [he'])) (fun q hq => ⟨fun e' he' => (hQ q hq).1 e' (by simp [he']), fun e' he' => (hQ q hq).2 e' (by simp [he'])⟩)

end

theorem dir_of_ftype {n : Node} (h : Spec.ftype n.kind = .directory) : n.isDir = true := by
  unfold Spec.ftype at h
  unfold Node.isDir
  cases hk : n.kind <;> rw [hk] at h <;> first | rfl | cases h

theorem fine_clean {Q : Path → Prop} : ∀ {ops : List Op} {S : LinkState}, (∀ op ∈ ops, op.isClean = true) → FineRun Q ops S := by
  intro ops
  induction ops with
  | nil => intros; trivial
  | cons op ops ih =>
    intro S h
    refine ⟨?_, fun S1 _ => ih (fun o ho => h o (by simp [ho]))⟩
    have := h op (by simp)
    cases op <;> first | (cases this; done) | exact ⟨trivial, fun q _ => Or.inl id⟩

section
variable {env : Env} {S : LinkState} {sel : List Entry}

theorem fine_plan (h : Ready env S.view sel) (hdist : Spec.DistinctDests sel) (hl : Spec.NoLinkToDir S.lower.view sel) (hmv : Spec.MovesDirs S.lower.view sel) (hd : S.lower.DirsSole) :
    FineRun (fun q => ¬ Spec.Touched env sel q) (plan env sel) S := by
  have hg := h.good
  have hap := apart_plan (P := fun _ => False) h hdist hl (fun _ h => h.elim)
  have hw : S.lower.view.WF := hg.wf
  unfold plan at hap ⊢
  have heq : applyPlan env sel = removeOps (realOrders env sel).1 ++ (premoveOps (realOrders env sel).2.1 ++ applyOps env 0 (realOrders env sel).2.2) := by
    rw [← List.append_assoc]; rfl
  rw [heq] at hap ⊢
  refine fineRun_append ?_ (fun S3 _ => fine_clean (fun op ho => by
    unfold cleanOps at ho
    obtain ⟨p, _, rfl⟩ := List.mem_map.1 ho
    rfl))
  have hap := apartRun_left hap
  -- removals
  have hR : FineRun (fun q => ¬ Spec.Touched env sel q) (removeOps (realOrders env sel).1) S := by
    refine fineRun_of hw hd (apartRun_left hap) (fun pre op post he S1 _ _ _ => ?_)
    obtain ⟨e, he', s, ho, hs, hh⟩ := opFrom_remove (env := env) (sel := sel) (op := op) (by rw [he]; simp)
    have hc : ∀ q, ¬ Spec.Touched env sel q → q ≠ s.path := fun q hq h => hq (.removed e s he' ho hs h.symm)
    rcases hh with rfl | rfl
    · exact ⟨trivial, fun q hq => Or.inl (by simpa [Op.region, Op.paths] using hc q hq)⟩
    · exact ⟨trivial, fun q hq => Or.inl (by simpa [Op.region, Op.paths] using hc q hq)⟩
  refine fineRun_append hR (fun S1 h1 => ?_)
  obtain ⟨r1, d1, w1, _⟩ := run_links hw hd (apartRun_left hap) hR
  rw [h1] at r1 d1 w1
  have hap1 := apartRun_right hap r1
  -- moves to the temporaries
  have hM : FineRun (fun q => ¬ Spec.Touched env sel q) (premoveOps (realOrders env sel).2.1) S1 := by
    refine fineRun_of w1 d1 (apartRun_left hap1) (fun pre op post he S2 hr hd2 ha2 => ?_)
    obtain ⟨e, he', s, j, ho, hs, rfl⟩ := opFrom_premove (env := env) (sel := sel) (op := op) (by rw [he]; simp)
    refine ⟨?_, fun q hq => Or.inl (fun h => ?_)⟩
    swap
    · rcases h with h | h
      · exact hq (.renSource e s he' ho hs h)
      · exact hq (.renTemp e s j he' ho hs (by rw [← renameTmp_eq]; exact h))
    intro a b hca hcb
    obtain ⟨hN, hl⟩ := ha2.plain (renameTmp env.cwd s.path e.dest (env.uuidR j)) (by simp [Op.paths])
    rw [FS.canon_nolink hN hl hcb]
    intro _ k _ hk
    -- the temporary does not exist
    rw [premoveOps_eq] at he
    obtain ⟨L1, L2', hL, rfl, hL2⟩ := List.map_eq_append_iff.1 he
    obtain ⟨p, L2, rfl, hp, rfl⟩ := List.map_eq_cons_iff.1 hL2
    simp only [Op.mv.injEq] at hp
    have r1' := ok_R hg r1
    have hpl := plain_M hg (links_R r1')
    rw [premoveOps_eq] at hpl
    have hsub : ∀ x ∈ L1, x ∈ movePairs (realOrders env sel).2.1 := fun x hx => by rw [hL]; simp [hx]
    have hin : p ∈ movePairs (realOrders env sel).2.1 := by rw [hL]; simp
    have hord := pairs_order hg
    obtain ⟨hD, hw2, _⟩ := phaseM_run (D := []) (a := S1.view.lower) (cwd := env.cwd) hpl (fun x hx => List.mem_map.2 ⟨x, hsub x hx, rfl⟩) r1'.wf
      (fun q h => .init h) ⟨by simp, by simp, by simp⟩
      (hord.sublist (by rw [hL]; simp)) (fun x hx => pairs_len hg x (hsub x (by simpa using hx)))
      (fun x hx x' hx' => pairs_ns hg x (hsub x (by simpa using hx)) x' (hsub x' (by simpa using hx'))) (by simp) hr
    have e1 := phaseR_run (plain_R hg) (fun _ h => h) (fun op hop => by
      obtain ⟨e, _, s, _, _, h⟩ := opFrom_remove hop; exact ⟨_, h⟩) hg.wf (fun q h => .init h) r1 p.2
    have hnew : S.lower.view.get p.2 = none := by
      rw [hp.2]
      exact NewName_none (hg.fresh.ren j e he' s hs) (by rw [renameTmp_eq]; simp)
    have h1n : S1.view.lower.get p.2 = none := by
      by_cases hgone : Gone (removeOps (realOrders env sel).1) p.2
      · exact e1.1 hgone
      · rw [e1.2 hgone]; exact hnew
    have hno : S2.lower.view.get p.2 = none := by
      have := hD.other p.2 (fun x hx hpre => by
        have hx : x ∈ L1 := by simpa using hx
        rw [hL] at hord
        have hne := ((List.pairwise_append.1 hord).2.2 x hx p (by simp)).2
        exact hne (hpre.eq_of_length (by rw [(pairs_len hg x (hsub x hx)).1, (pairs_len hg p hin).1])))
      refine Eq.trans this ?_
      split
      · rfl
      · exact h1n
    rw [← hp.2] at hk
    rw [Links.get_mem hw2.nodup hk] at hno
    cases hno
  refine fineRun_append hM (fun S2 h2 => ?_)
  obtain ⟨r2, d2, w2, _⟩ := run_links w1 d1 (apartRun_left hap1) hM
  rw [h2] at r2 d2 w2
  have hap2 := apartRun_right hap1 r2
  obtain ⟨hA, _⟩ := afterRM_run hg r1 r2
  have hu : S2.view.upper = S.view.upper := (upper_M r2).trans (upper_R r1)
  refine fineRun_A hg (plain_A hg (hA.links (fun _ h => h))) (alist_c5 h hu) (ainv_start h r1 r2) d2 hap2 (fun _ h => h) (fun e he ho t ht n hn => ?_) (fun q hq => ⟨fun e he hset => ?_, fun e he ho => ?_⟩)
  rotate_left
  · obtain ⟨e0, h0, hc⟩ := from_c5 e he
    obtain ⟨k1, k2, k3, k4⟩ := core_op hc
    have hset0 : Spec.IsSet e0 := by obtain ⟨ty, hty⟩ := hset; exact ⟨ty, by rw [← k1, hty]⟩
    rw [k2]
    exact ⟨fun h => hq (.dest e0 h0 hset0 h.symm), fun i h => hq (.copyTemp e0 i h0 hset0 (by rw [h, copyTmp_eq]))⟩
  · obtain ⟨e0, h0, hc⟩ := from_c5 e he
    obtain ⟨k1, k2, k3, k4⟩ := core_op hc
    obtain ⟨s, hs⟩ := hg.src e0 h0 (by rw [← k1, ho])
    refine ⟨fun h => hq (.renDest e0 h0 (by rw [← k1, ho]) (by rw [← k2]; exact h)), fun t ht h => ?_⟩
    obtain ⟨j, hj⟩ := c5_tmp he ho (k3.trans hs)
    rw [ht] at hj
    cases hj
    exact hq (.renTemp e0 s j h0 (by rw [← k1, ho]) hs (by rw [← renameTmp_eq, ← k2]; exact h))
  obtain ⟨g1, hg1, hD⟩ := hA.done
  have he4 := mem_stableSort.1 he
  obtain ⟨e0, h0, hc⟩ := from_c4 e he4
  obtain ⟨k1, k2, k3, k4⟩ := core_op hc
  obtain ⟨s, hs⟩ := hg.src e0 h0 (by rw [← k1, ho])
  have hp := movePairs_of he4 ho (k3.trans hs) ht
  have hm := hD.moved _ hp []
  simp only [List.append_nil] at hm
  rw [hm] at hn
  split at hn
  · cases hn
  · have hh : S.lower.view.get s.path = some n := by
      by_cases hr : Removed sel s.path
      · rw [(hg1 s.path).1 hr] at hn; cases hn
      · rw [(hg1 s.path).2 hr] at hn; exact hn
    have := hmv s.path e0.dest ⟨e0, h0, by rw [← k1, ho], rfl, s, hs, rfl⟩ n hh
    exact dir_of_ftype this

end

theorem dirs_once {L : Links} (hd : L.view.keys.Nodup) (h : Spec.DirsOnce L) : L.DirsSole := by
  intro p q i hp hq hi
  refine h p q ⟨i, hp, hq⟩ ⟨_, Links.get_mem hd hp, ?_⟩
  revert hi
  unfold Node.isDir
  cases (L.files i).kind <;> simp [Spec.ftype]

theorem crash_more {a b : List Op} {st st' : State} (h : CrashState a st st') : CrashState (a ++ b) st st' := by
  induction h with
  | here => exact .here
  | mid hm => exact .mid hm
  | failed hx => exact .failed hx
  | later hx _ ih => exact .later hx ih

theorem links_upto {env : Env} {S : LinkState} {sel : List Entry} (h : Ready env S.view sel) (hdist : Spec.DistinctDests sel) (hl : Spec.NoLinkToDir S.lower.view sel) (hmv : Spec.MovesDirs S.lower.view sel)
    (hw : S.lower.view.WF) (hd : S.lower.DirsSole) (k : Nat) :
    run ((plan env sel).take k) S.view = ((runLinks ((plan env sel).take k) S).1.view, (runLinks ((plan env sel).take k) S).2) ∧ (runLinks ((plan env sel).take k) S).1.lower.DirsSole ∧
    (runLinks ((plan env sel).take k) S).1.lower.view.WF ∧
    ∀ q, ¬ Spec.Touched env sel q → ∀ i, (q, i) ∈ (runLinks ((plan env sel).take k) S).1.lower.names ↔ (q, i) ∈ S.lower.names := by
  have hap : ApartRun (fun _ => False) (plan env sel) S.view := apart_plan h hdist hl (fun _ h => h.elim)
  rw [← List.take_append_drop k (plan env sel)] at hap
  exact run_links hw hd (apartRun_left hap) (fineRun_take k (fine_plan h hdist hl hmv hd))

theorem accept_is {env : Env} {st : State} (h0 : selected env st ≠ []) (hc : pretendCheck env st (selected env st) = none) :
    (accept env st).state = (run (plan env (selected env st)) st).1 ∧ (accept env st).error = (run (plan env (selected env st)) st).2 := by
  have hsel : selected env st = matching env.glob env.cwd env.patterns (changes env st) := rfl
  unfold accept
  simp only
  rw [← hsel]
  simp only [h0, hc, if_false, and_self]

theorem acceptLinks_is {env : Env} {S : LinkState} (h0 : selected env S.view ≠ []) (hc : pretendCheck env S.view (selected env S.view) = none) : acceptLinks env S = runLinks (plan env (selected env S.view)) S := by
  have hsel : selected env S.view = matching env.glob env.cwd env.patterns (changes env S.view) := rfl
  unfold acceptLinks
  simp only
  rw [← hsel]
  simp only [h0, hc, if_false]

theorem acceptLinks_not {env : Env} {S : LinkState} (h : selected env S.view = [] ∨ ∃ e, pretendCheck env S.view (selected env S.view) = some e) :
    (acceptLinks env S).1 = S ∧ (acceptLinks env S).1.view = (accept env S.view).state ∧ (acceptLinks env S).2 = (accept env S.view).error := by
  have hsel : selected env S.view = matching env.glob env.cwd env.patterns (changes env S.view) := rfl
  unfold acceptLinks accept
  simp only
  rw [← hsel]
  by_cases h0 : selected env S.view = []
  · simp only [h0, if_true, and_self]
  · obtain ⟨e, he⟩ := h.resolve_left h0
    simp only [h0, he, if_false, and_self]

theorem once_dirs {L : Links} (hw : L.view.keys.Nodup) (hs : L.DirsSole) : Spec.DirsOnce L := by
  rintro p q ⟨i, hp, hq⟩ ⟨n, hn, hk⟩
  rw [Links.get_mem hw hp] at hn
  cases hn
  exact hs p q i hp hq (dir_of_ftype hk)

/-! ### Theorems -/

/-- Accept on files with several names, left after `k` of its operations. -/
def interruptedLinks (env : Env) (S : LinkState) (k : Nat) : LinkState := (runLinks ((plan env (selected env S.view)).take k) S).1

/-- **C115 (partial)**, the end: on files with several names accept leaves under every name what it leaves when every name has a file of its own, and reports the same; so every other claim about its outcome carries over.
A name that accept does not touch stands for the file it stood for, even when another name of that file has been changed, removed or moved: the file is replaced, not written.
Missing: moved files that are no directories (overlayfs does not redirect them); the conditions of `Spec.Ordinary` and of C88. -/
theorem C115_accept_partial (env : Env) (S : LinkState) (hd : Spec.DirsOnce S.lower) (ho : Spec.Ordinary env S.view) (hl : Spec.NoLinkToDir S.lower.view (selected env S.view))
    (hm : Spec.MovesDirs S.lower.view (selected env S.view)) :
    (acceptLinks env S).1.view = (accept env S.view).state ∧ (acceptLinks env S).2 = (accept env S.view).error ∧
    (∀ p, ¬ Spec.Touched env (selected env S.view) p → ∀ i, (p, i) ∈ (acceptLinks env S).1.lower.names ↔ (p, i) ∈ S.lower.names) ∧ Spec.DirsOnce (acceptLinks env S).1.lower := by
  have hw : S.lower.view.WF := ho.wf
  have hds := dirs_once hw.nodup hd
  by_cases h0 : selected env S.view = [] ∨ ∃ e, pretendCheck env S.view (selected env S.view) = some e
  · obtain ⟨h1, h2, h3⟩ := acceptLinks_not h0
    refine ⟨h2, h3, ?_, ?_⟩
    · rw [h1]; exact fun _ _ _ => Iff.rfl
    · rw [h1]; exact hd
  · rw [not_or] at h0
    have hc : pretendCheck env S.view (selected env S.view) = none := by
      cases hx : pretendCheck env S.view (selected env S.view) with
      | none => rfl
      | some e => exact absurd ⟨e, hx⟩ h0.2
    have h1 := links_upto ho.ready ho.distinct hl hm hw hds (plan env (selected env S.view)).length
    rw [List.take_length] at h1
    have h2 := accept_is h0.1 hc
    rw [h1.1] at h2
    rw [acceptLinks_is h0.1 hc]
    generalize runLinks (plan env (selected env S.view)) S = T at h1 h2 ⊢
    rw [h2.1, h2.2]
    exact ⟨rfl, rfl, h1.2.2.2, once_dirs h1.2.2.1.nodup h1.2.1⟩

/-- **C115 (partial)**, on the way: after any number of operations a name that accept does not touch stands for the file it stood for, and that file is what it was.
Missing: as for `C115_accept_partial`. -/
theorem C115_interrupted_partial (env : Env) (S : LinkState) (k : Nat) (hd : Spec.DirsOnce S.lower) (ho : Spec.Ordinary env S.view) (hl : Spec.NoLinkToDir S.lower.view (selected env S.view))
    (hm : Spec.MovesDirs S.lower.view (selected env S.view)) (hc : pretendCheck env S.view (selected env S.view) = none) :
    AcceptState env S.view (interruptedLinks env S k).view ∧
    ∀ p, ¬ Spec.Touched env (selected env S.view) p → (interruptedLinks env S k).lower.view.get p = S.lower.view.get p ∧
      ∀ q, ¬ Spec.Touched env (selected env S.view) q → (Spec.SameFile (interruptedLinks env S k).lower p q ↔ Spec.SameFile S.lower p q) := by
  have hw : S.lower.view.WF := ho.wf
  have hds := dirs_once hw.nodup hd
  have h1 := links_upto ho.ready ho.distinct hl hm hw hds k
  have hA : AcceptState env S.view (interruptedLinks env S k).view := by
    refine .during hc ?_
    rw [← List.take_append_drop k (plan env (selected env S.view))]
    refine crash_more ?_
    have : (interruptedLinks env S k).view = (run ((plan env (selected env S.view)).take k) S.view).1 := by rw [h1.1]; rfl
    rw [this]
    exact crash_of_run
  have hn : ∀ q, ¬ Spec.Touched env (selected env S.view) q → ∀ i, (q, i) ∈ (interruptedLinks env S k).lower.names ↔ (q, i) ∈ S.lower.names := h1.2.2.2
  have h3 := C03_only_selected_paths_partial env S.view _ ho.wf ho.plain ho.fresh hA
  generalize interruptedLinks env S k = T at hA h3 hn ⊢
  refine ⟨hA, fun p hp => ⟨h3 p hp, fun q hq => ?_⟩⟩
  constructor
  · rintro ⟨i, ha, hb⟩; exact ⟨i, (hn p hp i).1 ha, (hn q hq i).1 hb⟩
  · rintro ⟨i, ha, hb⟩; exact ⟨i, (hn p hp i).2 ha, (hn q hq i).2 hb⟩

/-! ### Concrete cases -/

/-- Host: `/f` and `/g` are one file, `/d/x` and `/d/y` another.  In the sandbox: `echo new > f; rm d/x; echo one > n; ln n m`. -/
def exLinks : LinkState :=
  { lower := { names := [([], 0), ([str "d"], 1), ([str "f"], 2), ([str "g"], 2), ([str "d", str "x"], 3), ([str "d", str "y"], 3)]
               files := fun i => if i = 2 then { kind := .reg (str "old") } else if i = 3 then { kind := .reg (str "x") } else { kind := .dir } }
    upper := { names := [([], 0), ([str "F4"], 1), ([str "F4", str "d"], 2), ([str "F4", str "d", str "x"], 3), ([str "F4", str "f"], 4), ([str "F4", str "n"], 5), ([str "F4", str "m"], 5)]
               files := fun i => if i = 3 then { kind := .chr 0 } else if i = 4 then { kind := .reg (str "new") } else if i = 5 then { kind := .reg (str "one"), uid := 7 } else { kind := .dir } } }

theorem exLinks_ordinary : Spec.Ordinary exViewEnv exLinks.view := ordinary_of_check (fun _ => rfl) (fun _ => rfl) (by decide +kernel) (by decide +kernel) (by decide +kernel)

theorem sameFile_of_check {L : Links} {p q : Path} (h : (L.names.any (fun a => decide (a.1 = p) && L.names.any (fun b => decide (b.1 = q) && decide (b.2 = a.2)))) = true) : Spec.SameFile L p q := by
  simp only [List.any_eq_true, Bool.and_eq_true, decide_eq_true_eq] at h
  obtain ⟨⟨a, i⟩, ha, rfl, ⟨b, j⟩, hb, rfl, rfl⟩ := h
  exact ⟨_, ha, hb⟩

theorem not_sameFile_of_check {L : Links} {p q : Path} (h : (L.names.any (fun a => decide (a.1 = p) && L.names.any (fun b => decide (b.1 = q) && decide (b.2 = a.2)))) = false) : ¬ Spec.SameFile L p q := by
  rintro ⟨i, ha, hb⟩
  rw [Bool.eq_false_iff] at h
  apply h
  simp only [List.any_eq_true, Bool.and_eq_true, decide_eq_true_eq]
  exact ⟨_, ha, rfl, _, hb, rfl, rfl⟩

theorem dirsOnce_of_check {L : Links} (hn : L.view.keys.Nodup) (h : ∀ a ∈ L.names, ∀ b ∈ L.names, a.2 = b.2 → (L.files a.2).isDir = true → a.1 = b.1) : Spec.DirsOnce L := by
  rintro p q ⟨i, ha, hb⟩ ⟨n, hg, hk⟩
  rw [Links.get_mem hn ha] at hg
  cases hg
  exact h _ ha _ hb rfl (dir_of_ftype hk)

theorem movesDirs_of_check {host : FS} {sel : List Entry} (h : ∀ e ∈ sel, e.op = .rename → ∀ x ∈ e.source, ∀ n ∈ host.get x.path, Spec.ftype n.kind = .directory) : Spec.MovesDirs host sel := by
  rintro s d ⟨e, he, ho, _, x, hx, rfl⟩ n hn
  exact h e he ho x hx n hn

theorem exLinks_once : Spec.DirsOnce exLinks.lower := dirsOnce_of_check (by decide +kernel) (by decide +kernel)

/-- **C115 refuted** for changed names: on the host `/f` and `/g` are one file; the sandbox writes to `/f`.  After a complete accept they are two, and `/g` has the old content: what a program would have seen under both
names had it run outside the sandbox is under one of them. -/
theorem C115_refuted_changed :
    Spec.Ordinary exViewEnv exLinks.view ∧ Spec.DirsOnce exLinks.lower ∧ Spec.SameFile exLinks.lower [str "f"] [str "g"] ∧ (acceptLinks exViewEnv exLinks).2 = none ∧
    ¬ Spec.SameFile (acceptLinks exViewEnv exLinks).1.lower [str "f"] [str "g"] ∧
    (acceptLinks exViewEnv exLinks).1.lower.view.get [str "f"] = some { kind := .reg (str "new") } ∧ (acceptLinks exViewEnv exLinks).1.lower.view.get [str "g"] = some { kind := .reg (str "old") } :=
  ⟨exLinks_ordinary, exLinks_once, sameFile_of_check (by decide +kernel), by decide +kernel, not_sameFile_of_check (by decide +kernel), by decide +kernel, by decide +kernel⟩

/-- **C115 refuted** for names made in the sandbox: `ln n m` gives two names of one file in the storage; accept makes two files of them on the host. -/
theorem C115_refuted_created :
    Spec.Ordinary exViewEnv exLinks.view ∧ Spec.SameFile exLinks.upper [str "F4", str "n"] [str "F4", str "m"] ∧ (acceptLinks exViewEnv exLinks).2 = none ∧
    (acceptLinks exViewEnv exLinks).1.lower.view.get [str "n"] = some { kind := .reg (str "one"), uid := 7 } ∧ (acceptLinks exViewEnv exLinks).1.lower.view.get [str "m"] = some { kind := .reg (str "one"), uid := 7 } ∧
    ¬ Spec.SameFile (acceptLinks exViewEnv exLinks).1.lower [str "n"] [str "m"] :=
  ⟨exLinks_ordinary, sameFile_of_check (by decide +kernel), by decide +kernel, by decide +kernel, by decide +kernel, not_sameFile_of_check (by decide +kernel)⟩

-- Non-vacuity of `C115_accept_partial` and `C115_interrupted_partial`, and what they say: `/d/y` keeps its file although `/d/x` is removed, `/g` although `/f` is changed.
example : (acceptLinks exViewEnv exLinks).1.view = (accept exViewEnv exLinks.view).state :=
  (C115_accept_partial exViewEnv exLinks exLinks_once exLinks_ordinary (noLinkToDir_of_check (by decide +kernel)) (movesDirs_of_check (by decide +kernel))).1
example (k : Nat) : AcceptState exViewEnv exLinks.view (interruptedLinks exViewEnv exLinks k).view :=
  (C115_interrupted_partial exViewEnv exLinks k exLinks_once exLinks_ordinary (noLinkToDir_of_check (by decide +kernel)) (movesDirs_of_check (by decide +kernel)) (by decide +kernel)).1
example : (accept exViewEnv exLinks.view).error = none ∧ (accept exViewEnv exLinks.view).accepted = 4 ∧ (acceptLinks exViewEnv exLinks).1.lower.ino [str "g"] = some 2 ∧ (acceptLinks exViewEnv exLinks).1.lower.ino [str "d", str "y"] = some 3 ∧
    (acceptLinks exViewEnv exLinks).1.lower.ino [str "d", str "x"] = none := by decide +kernel

/-- Host: `/d/x` and `/o` are one file; in the sandbox `mv d e`. -/
def exLinksMove : LinkState :=
  { lower := { names := [([], 0), ([str "d"], 1), ([str "d", str "x"], 2), ([str "o"], 2)], files := fun i => if i = 2 then { kind := .reg (str "old") } else { kind := .dir } }
    upper := { names := [([], 0), ([str "F4"], 1), ([str "F4", str "d"], 2), ([str "F4", str "e"], 3)]
               files := fun i => if i = 2 then { kind := .chr 0 } else if i = 3 then { kind := .dir, redirect := some (str "/d") } else { kind := .dir } } }

-- A move of a directory keeps the files in it: `/e/x` and `/o` are one file.
example : (acceptLinks exViewEnv exLinksMove).2 = none ∧ (acceptLinks exViewEnv exLinksMove).1.lower.ino [str "e", str "x"] = some 2 ∧ (acceptLinks exViewEnv exLinksMove).1.lower.ino [str "o"] = some 2 := by decide +kernel
example : (acceptLinks exViewEnv exLinksMove).1.view = (accept exViewEnv exLinksMove.view).state :=
  (C115_accept_partial exViewEnv exLinksMove (dirsOnce_of_check (by decide +kernel) (by decide +kernel)) (ordinary_of_check (fun _ => rfl) (fun _ => rfl) (by decide +kernel) (by decide +kernel) (by decide +kernel))
    (noLinkToDir_of_check (by decide +kernel)) (movesDirs_of_check (by decide +kernel))).1

end SB
