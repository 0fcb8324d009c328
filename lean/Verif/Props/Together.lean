import Verif.Lib.TogetherClean
import Verif.Lib.TogetherGone
import Verif.Spec.Together
import Verif.Props.During
import Mathlib.Data.List.Pairwise

/-!
# C117: several accepts of one sandbox at the same time
-/

namespace SB

/-! ### What holds at every moment -/

/-- **C117, complete files** (partial: plain host, no moves selected): any number of accepts of one sandbox may run at the same time, be interrupted and killed at any moment, and reject or delete may remove any part of the
storage meanwhile: apart from the temporaries of the accepts, every path of the host has at every moment the complete type and content it had at the beginning, or those of a selected change; and there is nothing only where a selected
change removes something or puts a link. -/
theorem C117_complete_partial (env0 : Env) (st st' : State) (ws : List Accepting) (h : Together st ws st') (hat : Spec.AtOnce env0 st (ws.map Accepting.job)) (q : Path)
    (hq : ∀ w ∈ ws, ¬ Spec.Temp w.env w.sel q) : Spec.Complete (Spec.allSelected (ws.map Accepting.job)) st.lower q ((st'.lower.get q).map (·.kind)) := (together_inv h hat).kind q hq

/-- **C117, only selected paths** (partial: the same): the accepts together change nothing on the host that not one of them may change; the host stays a tree. -/
theorem C117_scope_partial (env0 : Env) (st st' : State) (ws : List Accepting) (h : Together st ws st') (hat : Spec.AtOnce env0 st (ws.map Accepting.job)) :
    st'.lower.WF ∧ ∀ q, (∀ w ∈ ws, ¬ Spec.Touched w.env w.sel q) → st'.lower.get q = st.lower.get q := ⟨(together_inv h hat).wf, (together_inv h hat).keep⟩

/-- **C117, storage**: nothing is added to the storage or changed in it. -/
theorem C117_storage (st st' : State) (ws : List Accepting) (hw : st.upper.WF) (h : Together st ws st') (p : Path) (n : Node) (hp : st'.upper.get p = some n) : st.upper.get p = some n :=
  (thins_together h).get hp hw.nodup

theorem cleans {w : Accepting} (hok : w.Ok) {e : Entry} (he : e ∈ w.sel) {s : Details} (hs : e.staged = some s) : Op.clean s.path ∈ plan w.env w.sel := by
  have hm : s.path ∈ cleanPaths (realOrders w.env w.sel).2.2 := mem_cleanPaths_c5.2 ⟨e, he, hok.noErr e he, s, hs, rfl⟩
  have : Op.clean s.path ∈ cleanOps (realOrders w.env w.sel).2.2 := List.mem_map.2 ⟨_, hm, rfl⟩
  unfold plan
  exact List.mem_append.2 (.inr this)

/-- **C117, at most one success**: of two accepts that selected the same stored change (in whatever circumstances) at most one reports success. -/
theorem C117_once (st st' : State) (ws : List Accepting) (hw : st.upper.WF) (h : Together st ws st') :
    ws.Pairwise (fun w w' => w.left = .ok [] → w'.left = .ok [] → ∀ e ∈ w.sel, ∀ e' ∈ w'.sel, ∀ s s', e.staged = some s → e'.staged = some s' → s.path ≠ s'.path) := by
  have hok := together_ok h
  refine (together_clean hw h).apart.imp_of_mem ?_
  intro w w' hwm hwm' hap hl hl' e he e' he' s s' hs hs' heq
  refine hap [] [] (plan w.env w.sel) (plan w'.env w'.sel) hl hl' (by simp) (by simp) s.path (cleans (hok w hwm) he hs) ?_
  rw [heq]
  exact cleans (hok w' hwm') he' hs'

/-- **C117, success clears the storage**: what an accept selected is gone from the storage when it reports success, and stays away. -/
theorem C117_cleared (st st' : State) (ws : List Accepting) (hw : st.upper.WF) (h : Together st ws st') (w : Accepting) (hm : w ∈ ws) (hl : w.left = .ok []) (e : Entry) (he : e ∈ w.sel) (s : Details)
    (hs : e.staged = some s) : st'.upper.get s.path = none := by
  obtain ⟨x, hx, hp⟩ := (together_clean hw h).gone w hm [] hl
  rw [List.append_nil] at hx
  exact hp _ (by rw [hx]; exact cleans (together_ok h w hm) he hs)

theorem applyOps_set {env : Env} : ∀ {l : List Entry} (i : Nat) {e : Entry} {s : Details}, e ∈ l → Spec.IsSet e → e.staged = some s →
    ∃ k, ∀ op ∈ setOps e.dest s (copyTmp e.dest (env.uuidC k)), op ∈ applyOps env i l
  | [], _, _, _, he, _, _ => by cases he
  | x :: l, i, e, s, he, hi, hs => by
    rcases List.mem_cons.1 he with rfl | he
    · refine ⟨i, fun op hop => ?_⟩
      obtain ⟨t, ht⟩ := hi
      rw [applyOps, ht, hs]
      exact List.mem_append.2 (.inl hop)
    · obtain ⟨k, hk⟩ := applyOps_set (i + 1) he hi hs
      exact ⟨k, fun op hop => by rw [applyOps]; exact List.mem_append.2 (.inr (hk op hop))⟩

theorem plan_set {env : Env} {sel : List Entry} {e : Entry} {s : Details} (he : e ∈ sel) (hi : Spec.IsSet e) (hs : e.staged = some s) :
    ∃ k, ∀ op ∈ setOps e.dest s (copyTmp e.dest (env.uuidC k)), op ∈ plan env sel := by
  obtain ⟨e', he', hc⟩ := mem_of_From (core_c5 env sel) he
  obtain ⟨h1, h2, h3, h4⟩ := core_op hc
  obtain ⟨k, hk⟩ := applyOps_set (env := env) 0 he' (by obtain ⟨t, ht⟩ := hi; exact ⟨t, h1.trans ht⟩) (h4.trans hs)
  refine ⟨k, fun op hop => ?_⟩
  rw [h2] at hk
  have : op ∈ applyOps env 0 (realOrders env sel).2.2 := hk op hop
  unfold plan applyPlan
  simp only [List.mem_append]
  exact .inl (.inr this)

/-- **C117, what was accepted stays** (partial: plain host, no moves, not for links nor for a file in place of a directory): once an accept has reported success, every file and directory it selected is on the host with its type and
content, whatever the others do, wherever they are stopped, and whatever is removed from the storage. -/
theorem C117_done_partial (env0 : Env) (st st' : State) (ws : List Accepting) (h : Together st ws st') (hat : Spec.AtOnce env0 st (ws.map Accepting.job)) (hd : Spec.DistinctDests (changes env0 st))
    (w : Accepting) (hm : w ∈ ws) (hl : w.left = .ok []) (e : Entry) (he : e ∈ w.sel) (hi : Spec.IsSet e) (s : Details) (hs : e.staged = some s) (hk : Spec.ftype s.node.kind ≠ .symlink)
    (hr : ¬ Spec.Removes (Spec.allSelected (ws.map Accepting.job)) e.dest) (hn : ∀ n, st.lower.get e.dest = some n → Spec.ftype n.kind ≠ .symlink) :
    (st'.lower.get e.dest).map (·.kind) = some s.node.kind := by
  have hj : w.job ∈ ws.map Accepting.job := List.mem_map.2 ⟨w, hm, rfl⟩
  have heU : e ∈ Spec.allSelected (ws.map Accepting.job) := mem_all.2 ⟨_, hj, he⟩
  have hlnk : ∀ n : Node, Spec.ftype n.kind ≠ .symlink → n.isLnk = false := by
    intro n hx
    by_contra hc
    exact hx (link_ftype.1 (by simpa using hc))
  have hplace : Place st (ws.map Accepting.job) e.dest s.node.kind := by
    refine ⟨fun e1 he1 hi1 hd1 s1 hs1 => ?_, ?_, hr, ?_, fun j hj' e1 he1 i hc => ?_⟩
    · obtain ⟨j1, hj1, he1'⟩ := mem_all.1 he1
      obtain ⟨a, ha, hsa⟩ := hat.same j1 hj1 e1 he1'
      obtain ⟨b, hb, hsb⟩ := hat.same _ hj e he
      have notrem : ∀ x : Entry, Spec.IsSet x → x.op ≠ .remove := by rintro x ⟨t, ht⟩ hx; rw [ht] at hx; cases hx
      rcases hsa with ⟨_, hia, hda, hga⟩ | ⟨hx, _⟩
      · rcases hsb with ⟨_, hib, hdb, hgb⟩ | ⟨hx, _⟩
        · have hab : a = b := by
            by_contra hne
            have hsym : Std.Symm (fun x y : Entry => (Spec.IsSet x ∨ x.op = .rename) → (Spec.IsSet y ∨ y.op = .rename) → x.dest ≠ y.dest) := ⟨fun x y hxy h1 h2 h3 => hxy h2 h1 h3.symm⟩
            exact List.Pairwise.forall hd ha hb hne (.inl hia) (.inl hib) (by rw [← hda, hd1, hdb])
          subst hab
          have : some s1 = some s := by rw [← hs1, ← hs, hga, hgb]
          cases this
          rfl
        · exact absurd hx (notrem e hi)
      · exact absurd hx (notrem e1 hi1)
    · exact hlnk _ hk
    · rintro ⟨n, hg, hx⟩
      rw [hlnk n (hn n hg)] at hx
      cases hx
    · refine ((hat.fresh j hj').copy i e1 he1).dest e heU ?_
      rw [hc]
      exact copy_mem
  have hok := together_ok h w hm
  obtain ⟨s', hs', hsup⟩ := hok.staged e he hi
  rw [hs] at hs'; cases hs'
  obtain ⟨k, hplan⟩ := plan_set (env := w.env) he hi hs
  refine together_done h hat hplace w hm [] (plan w.env w.sel) hl (by simp) ?_
  by_cases hreg : s.node.isReg = true
  · refine ⟨.mv (copyTmp e.dest (w.env.uuidC k)) e.dest, hplan _ ?_, .inl ⟨_, rfl⟩⟩
    unfold setOps
    rw [if_pos hreg]
    simp
  · refine ⟨.mkdirIfNeeded e.dest, hplan _ ?_, .inr rfl⟩
    unfold setOps
    rw [if_neg hreg, if_neg (by rw [hlnk _ hk]; decide)]
    simp

/-- **C117, what was removed stays away** (partial: plain host, no moves, nothing selected for the same path): once an accept has reported success, every host path whose removal it selected is gone, whatever the others do. -/
theorem C117_removed_partial (env0 : Env) (st st' : State) (ws : List Accepting) (h : Together st ws st') (hat : Spec.AtOnce env0 st (ws.map Accepting.job))
    (w : Accepting) (hm : w ∈ ws) (hl : w.left = .ok []) (e : Entry) (he : e ∈ w.sel) (ho : e.op = .remove) (s : Details) (hs : e.source = some s)
    (hn : ∀ e' ∈ Spec.allSelected (ws.map Accepting.job), Spec.IsSet e' → e'.dest ≠ s.path) : st'.lower.get s.path = none := by
  have hj : w.job ∈ ws.map Accepting.job := List.mem_map.2 ⟨w, hm, rfl⟩
  have heU : e ∈ Spec.allSelected (ws.map Accepting.job) := mem_all.2 ⟨_, hj, he⟩
  have hgap : Gap (ws.map Accepting.job) s.path := by
    refine ⟨hn, fun j hj' e1 he1 i hc => ?_⟩
    refine ((hat.fresh j hj').copy i e1 he1).source e heU s hs ?_
    rw [hc]
    exact copy_mem
  have hgone : Gone (removeOps (realOrders w.env w.sel).1) s.path := gone_removeOps.2 ⟨e, he, ho, s, hs, rfl⟩
  have hplan : ∀ op, op ∈ removeOps (realOrders w.env w.sel).1 → op ∈ plan w.env w.sel := by
    intro op hop
    unfold plan applyPlan
    simp only [List.mem_append]
    exact .inl (.inl (.inl hop))
  have key : st'.lower.kindAt s.path = none := by
    refine together_gone h hat hgap w hm [] (plan w.env w.sel) hl (by simp) ?_
    rcases hgone with hg | hg
    · exact ⟨_, hplan _ hg, .inl rfl⟩
    · exact ⟨_, hplan _ hg, .inr rfl⟩
  unfold FS.kindAt at key
  cases hg : st'.lower.get s.path with
  | none => rfl
  | some n => rw [hg] at key; cases key

/-! ### Schedules, for concrete cases -/

/-- One accept is scheduled for one operation. -/
def tick (x : List Accepting × State) (i : Nat) : List Accepting × State :=
  match x.1[i]? with
  | some ⟨env, sel, .ok (op :: r)⟩ =>
    match exec op x.2 with
    | (st', none) => (x.1.set i ⟨env, sel, .ok r⟩, st')
    | (st', some e) => (x.1.set i ⟨env, sel, .error e⟩, st')
  | _ => x

theorem together_tick {st0 : State} {x : List Accepting × State} (i : Nat) (h : Together st0 x.1 x.2) : Together st0 (tick x i).1 (tick x i).2 := by
  unfold tick
  split
  · next env sel op r hx =>
    obtain ⟨a, b, hab, hlen⟩ : ∃ a b, x.1 = a ++ ⟨env, sel, .ok (op :: r)⟩ :: b ∧ a.length = i := by
      have hi : i < x.1.length := by
        by_contra hc
        rw [List.getElem?_eq_none (by omega)] at hx
        cases hx
      refine ⟨x.1.take i, x.1.drop (i + 1), ?_, by simp; omega⟩
      rw [List.getElem?_eq_getElem hi] at hx
      rw [← Option.some.inj hx, List.cons_getElem_drop_succ, List.take_append_drop]
    have hset : ∀ y, x.1.set i y = a ++ y :: b := by
      intro y
      rw [hab, ← hlen]
      simp
    rw [hab] at h
    split
    · next st' he => simp only [hset]; exact .step h he
    · next st' e he => simp only [hset]; exact .fail h he
  · exact h

theorem together_ticks {st0 : State} (l : List Nat) {x : List Accepting × State} (h : Together st0 x.1 x.2) : Together st0 (l.foldl tick x).1 (l.foldl tick x).2 := by
  induction l generalizing x with
  | nil => exact h
  | cons i l ih => exact ih (together_tick i h)

/-- Two accepts have listed the same changes; then they are scheduled as `l` says. -/
def twoAccepts (env env' : Env) (st : State) (l : List Nat) : List Accepting × State :=
  l.foldl tick ([⟨env, selected env st, .ok (plan env (selected env st))⟩, ⟨env', selected env' st, .ok (plan env' (selected env' st))⟩], st)

theorem together_two {env env' : Env} {st : State} (l : List Nat) (h : pretendCheck env st (selected env st) = none) (h' : pretendCheck env' st (selected env' st) = none) :
    Together st (twoAccepts env env' st l).1 (twoAccepts env env' st l).2 := together_ticks l (.start env' (.start env .none h) h')

/-! ### A concrete case -/

theorem freshTemps_again {env : Env} {host : FS} {sel : List Entry} (h : (host.keys.all (fun q => q.all (fun x => !x.contains '%' && !x.contains '$')) && sel.all (fun e => e.dest.all (fun x => !x.contains '%' && !x.contains '$')) &&
    sel.all (fun e => match e.source with | none => true | some s => s.path.all (fun x => !x.contains '%' && !x.contains '$')) && env.cwd.all (fun x => !x.contains '%' && !x.contains '$')) = true) :
    Spec.FreshTemps (exAgain env) host sel := by
  simp only [Bool.and_eq_true, List.all_eq_true, Bool.not_eq_true', List.contains_eq_mem, decide_eq_false_iff_not] at h
  obtain ⟨⟨⟨h1, h2⟩, h3⟩, h4⟩ := h
  refine freshTemps_of_marks (a := '%') (b := '$') (by decide) (by decide) (by decide) (fun _ => rfl) (fun _ => rfl) (by decide) (by decide) h1 h2 (fun e he s hs => ?_) h4
  have := h3 e he
  rw [hs] at this
  simpa using this

theorem other_temps {env env' : Env} (h : ∀ i, env.uuidC i = List.replicate (i + 1) '@') (h' : ∀ i, env'.uuidC i = List.replicate (i + 1) '$') (d d' : Path) (x y : Nat) :
    Spec.copyName d (env.uuidC x) ≠ Spec.copyName d' (env'.uuidC y) := by
  intro hc
  have last : ∀ (n : Name) (c : Char) (k : Nat), (withExtension n (List.replicate (k + 1) c)).getLast? = some c := by
    intro n c k
    obtain ⟨t, ht⟩ := withExtension_suffix n (List.replicate (k + 1) c)
    rw [← ht, List.replicate_succ', ← List.append_assoc, List.getLast?_append]
    simp
  unfold Spec.copyName at hc
  rw [h, h'] at hc
  have := congrArg List.getLast? hc
  rw [last, last] at this
  simp at this

/-- A decidable form of `Spec.AtOnce` for two accepts of the same changes. -/
def exTwoCheck (st : State) : Bool :=
  decide st.lower.WF && decide st.upper.WF && decide (selected (exAgain exViewEnv) st = selected exViewEnv st) &&
  (selected exViewEnv st).all (fun e => match e.op with | .set _ => true | .remove => true | _ => false) &&
  plainCheck exViewEnv st.lower (selected exViewEnv st) && plainCheck (exAgain exViewEnv) st.lower (selected exViewEnv st) &&
  marksCheck exViewEnv st.lower (selected exViewEnv st) &&
  (st.lower.keys.all (fun q => q.all (fun x => !x.contains '%' && !x.contains '$')) && (selected exViewEnv st).all (fun e => e.dest.all (fun x => !x.contains '%' && !x.contains '$')) &&
    (selected exViewEnv st).all (fun e => match e.source with | none => true | some s => s.path.all (fun x => !x.contains '%' && !x.contains '$')) && exViewEnv.cwd.all (fun x => !x.contains '%' && !x.contains '$')) &&
  (selected exViewEnv st).all (fun e => match e.staged with
      | some s => !s.node.isLnk || (selected exViewEnv st).all (fun e' => match e'.op, e'.source with | .remove, some x => !belowB e.dest x.path | _, _ => true)
      | none => true)

theorem atOnce_two {st : State} (h : exTwoCheck st = true) : Spec.AtOnce exViewEnv st [(exViewEnv, selected exViewEnv st), (exAgain exViewEnv, selected (exAgain exViewEnv) st)] := by
  unfold exTwoCheck at h
  rw [Bool.and_eq_true, Bool.and_eq_true, Bool.and_eq_true, Bool.and_eq_true, Bool.and_eq_true, Bool.and_eq_true, Bool.and_eq_true, Bool.and_eq_true, decide_eq_true_eq, decide_eq_true_eq, decide_eq_true_eq] at h
  obtain ⟨⟨⟨⟨⟨⟨⟨⟨c1, c2⟩, c3⟩, c4⟩, c5⟩, c6⟩, c7⟩, c8⟩, c9⟩ := h
  have hsub : ∀ e ∈ Spec.allSelected [(exViewEnv, selected exViewEnv st), (exAgain exViewEnv, selected (exAgain exViewEnv) st)], e ∈ selected exViewEnv st := by
    intro e he
    unfold Spec.allSelected at he
    rw [c3] at he
    simpa using he
  refine ⟨c1, c2, ?_, ?_, ?_, ?_, ?_⟩
  · intro j hj e he
    have he' := hsub e (mem_all.2 ⟨j, hj, he⟩)
    refine ⟨e, mem_selected he', ?_⟩
    rw [List.all_eq_true] at c4
    have := c4 e he'
    cases ho : e.op with
    | set t => exact .inl ⟨⟨t, ho⟩, ⟨t, ho⟩, rfl, rfl⟩
    | remove => exact .inr ⟨ho, ho, rfl⟩
    | rename => rw [ho] at this; cases this
    | error x => rw [ho] at this; cases this
  · intro j hj
    refine plainHost_mono ?_ hsub
    simp only [List.mem_cons, List.not_mem_nil, or_false] at hj
    rcases hj with rfl | rfl
    · exact plainHost_of_check c5
    · exact plainHost_of_check c6
  · intro j hj
    refine freshTemps_mono ?_ hsub
    simp only [List.mem_cons, List.not_mem_nil, or_false] at hj
    rcases hj with rfl | rfl
    · exact freshTemps_of_check (fun _ => rfl) (fun _ => rfl) c7
    · exact freshTemps_again c8
  · refine List.pairwise_cons.2 ⟨fun j hj => ?_, List.pairwise_singleton _ _⟩
    rw [List.mem_singleton] at hj
    subst hj
    exact fun e _ e' _ x y => other_temps (fun _ => rfl) (fun _ => rfl) _ _ x y
  · intro e he hi s hs hk q hq hb
    rw [List.all_eq_true] at c9
    have := c9 e (hsub e he)
    rw [hs] at this
    dsimp only at this
    rw [link_ftype.2 hk] at this
    simp only [Bool.not_true, Bool.false_or] at this
    rw [List.all_eq_true] at this
    obtain ⟨e', he', ho, x, hx, rfl⟩ := hq
    have := this e' (hsub e' he')
    rw [ho, hx] at this
    simp only [belowB_iff.2 hb] at this
    cases this

theorem twoAccepts_jobs {env env' : Env} {st : State} (l : List Nat) :
    (twoAccepts env env' st l).1.map Accepting.job = [(env, selected env st), (env', selected env' st)] := by
  have key : ∀ (l : List Nat) (x : List Accepting × State), (l.foldl tick x).1.map Accepting.job = x.1.map Accepting.job := by
    intro l
    induction l with
    | nil => intro x; rfl
    | cons i l ih =>
      intro x
      rw [List.foldl_cons, ih]
      unfold tick
      split
      · next env sel op r hx =>
        have : ∀ y : Accepting, y.job = (env, sel) → (x.1.set i y).map Accepting.job = x.1.map Accepting.job := by
          intro y hy
          refine List.ext_getElem? (fun k => ?_)
          rw [List.getElem?_map, List.getElem?_map, List.getElem?_set]
          split
          · next hik =>
            subst hik
            rw [hx]
            split
            · simp only [Option.map_some]; rw [hy]; rfl
            · next hlt =>
              rw [List.getElem?_eq_none (by omega)] at hx
              cases hx
          · rfl
        split <;> exact this _ rfl
      · rfl
  unfold twoAccepts
  rw [key]
  rfl

/-- Host with `/f`; in the sandbox: `echo new > f; mkdir d; echo x > d/g`. -/
def exTwo : State := ⟨[([], { kind := .dir }), ([str "f"], { kind := .reg (str "f") })],
  [([], { kind := .dir }), ([str "F4"], { kind := .dir }), ([str "F4", str "d"], { kind := .dir, opq := true }), ([str "F4", str "d", str "g"], { kind := .reg (str "x"), uid := 7 }), ([str "F4", str "f"], { kind := .reg (str "new") })]⟩

/-- The first accept makes five operations, the second six, and then the first one the rest, and the second. -/
def exSchedule : List Nat := List.replicate 5 0 ++ List.replicate 6 1 ++ List.replicate 30 0 ++ List.replicate 30 1

theorem together_ex {st : State} (l : List Nat) (hc : exTwoCheck st = true) (h : pretendCheck exViewEnv st (selected exViewEnv st) = none) (h' : pretendCheck (exAgain exViewEnv) st (selected (exAgain exViewEnv) st) = none) :
    Together st (twoAccepts exViewEnv (exAgain exViewEnv) st l).1 (twoAccepts exViewEnv (exAgain exViewEnv) st l).2 ∧ Spec.AtOnce exViewEnv st ((twoAccepts exViewEnv (exAgain exViewEnv) st l).1.map Accepting.job) :=
  ⟨together_two l h h', by rw [twoAccepts_jobs]; exact atOnce_two hc⟩

-- the conditions hold for this schedule: the first accept succeeds, the second fails, and the host has what was accepted
example : exTwoCheck exTwo = true ∧ pretendCheck exViewEnv exTwo (selected exViewEnv exTwo) = none ∧ pretendCheck (exAgain exViewEnv) exTwo (selected (exAgain exViewEnv) exTwo) = none ∧ exTwo.upper.WF := by decide +kernel
example : (twoAccepts exViewEnv (exAgain exViewEnv) exTwo exSchedule).1.map (·.left) = [.ok [], .error (.os .ENOENT)] ∧
    ((twoAccepts exViewEnv (exAgain exViewEnv) exTwo exSchedule).2.lower.get [str "d", str "g"]).map (·.kind) = some (.reg (str "x")) ∧
    ((twoAccepts exViewEnv (exAgain exViewEnv) exTwo exSchedule).2.lower.get [str "f"]).map (·.kind) = some (.reg (str "new")) := by decide +kernel
-- `C117_done_partial`: the change of `f`
example : ∃ e ∈ selected exViewEnv exTwo, Spec.IsSet e ∧ e.dest = [str "f"] ∧ ∃ s, e.staged = some s ∧ s.node.kind = .reg (str "new") := by
  have : (selected exViewEnv exTwo).any (fun e => (match e.op with | .set _ => true | _ => false) && e.dest == [str "f"] && e.staged.map (·.node.kind) == some (.reg (str "new"))) = true := by decide +kernel
  rw [List.any_eq_true] at this
  obtain ⟨e, he, h⟩ := this
  simp only [Bool.and_eq_true, beq_iff_eq, Option.map_eq_some_iff] at h
  refine ⟨e, he, ?_, h.1.2, h.2⟩
  cases ho : e.op <;> simp [ho] at h
  exact ⟨_, ho⟩
example : Spec.DistinctDests (changes exViewEnv exTwo) := by
  have hs : selected exViewEnv exTwo = changes exViewEnv exTwo := by decide +kernel
  rw [← hs]
  exact distinctDests_of_state (by decide +kernel) (separate_of_check (by decide +kernel))
example : (selected exViewEnv exTwo).all (fun e => e.op != .remove) = true ∧ ∀ n, exTwo.lower.get [str "f"] = some n → Spec.ftype n.kind ≠ .symlink := by
  refine ⟨by decide +kernel, fun n hn => ?_⟩
  have : exTwo.lower.get [str "f"] = some { kind := .reg (str "f") } := by decide +kernel
  rw [this] at hn
  cases hn
  decide
-- `C117_removed_partial`: of `exDuring`, where `d/x` is removed and nothing is put there
example : exTwoCheck exDuring = true ∧ (twoAccepts exViewEnv (exAgain exViewEnv) exDuring ([0] ++ List.replicate 30 1 ++ List.replicate 30 0)).1.map (·.left) = [.ok [], .error (.os .ENOENT)] ∧
    (selected exViewEnv exDuring).any (fun e => e.op == .remove && e.source.map (·.path) == some [str "d", str "x"]) = true ∧
    (selected exViewEnv exDuring).all (fun e => e.op == .remove || e.dest != [str "d", str "x"]) = true := by decide +kernel

/-! ### Where it does not hold -/

/-- Host with the link `l`; in the sandbox: `ln -sfn new l`. -/
def exOldLink : State := ⟨[([], { kind := .dir }), ([str "l"], { kind := .lnk (str "old") })],
  [([], { kind := .dir }), ([str "F4"], { kind := .dir }), ([str "F4", str "l"], { kind := .lnk (str "new") })]⟩

/-- **C117 refuted** for a changed link: two accepts of `ln -sfn new l`.  One has read the stored link and is stopped; the other completes and reports success; the first goes on, removes the accepted link, and is killed before it
can put it again.  The link is then neither on the host nor in the storage. -/
theorem C117_refuted_link : ∃ ws st', Together exOldLink ws st' ∧ Spec.AtOnce exViewEnv exOldLink (ws.map Accepting.job) ∧ (∃ w ∈ ws, w.left = .ok [] ∧ w.sel = changes exViewEnv exOldLink) ∧
    st'.lower.get [str "l"] = none ∧ st'.upper.get [str "F4", str "l"] = none ∧ (exOldLink.lower.get [str "l"]).isSome := by
  have h := together_ex (st := exOldLink) (List.replicate 4 0 ++ [1]) (by decide +kernel) (by decide +kernel) (by decide +kernel)
  refine ⟨_, _, h.1, h.2, ⟨⟨exViewEnv, selected exViewEnv exOldLink, .ok []⟩, ?_, rfl, by decide +kernel⟩, by decide +kernel, by decide +kernel, by decide +kernel⟩
  refine List.mem_of_getElem? (i := 0) ?_
  rfl

/-- Host with `/d/x` and `/other/x`; in the sandbox: `rm -r d; ln -s /other d`. -/
def exLinkDir : State := ⟨[([], { kind := .dir }), ([str "d"], { kind := .dir }), ([str "d", str "x"], { kind := .reg (str "old") }), ([str "other"], { kind := .dir }), ([str "other", str "x"], { kind := .reg (str "precious") })],
  [([], { kind := .dir }), ([str "F4"], { kind := .dir }), ([str "F4", str "d"], { kind := .lnk (str "/other") })]⟩

/-- **C117 refuted** for a directory replaced by a link (`rm -r d; ln -s /other d`): both accepts have listed the changes; one completes and puts the link; the other then removes `d/x`: through the link.  It has deleted `/other/x`,
which no sandbox has ever touched. -/
theorem C117_refuted_through_link : Spec.Ordinary exViewEnv exLinkDir ∧ ∃ ws st', Together exLinkDir ws st' ∧
    (∃ w ∈ ws, w.left = .ok []) ∧ (∀ w ∈ ws, ∀ e ∈ w.sel, e.dest.head? = some (str "d")) ∧
    (exLinkDir.lower.get [str "other", str "x"]).map (·.kind) = some (.reg (str "precious")) ∧ st'.lower.get [str "other", str "x"] = none := by
  refine ⟨ordinary_of_check (fun _ => rfl) (fun _ => rfl) (by decide +kernel) (by decide +kernel) (by decide +kernel),
    _, _, together_two (env := exViewEnv) (env' := exAgain exViewEnv) (st := exLinkDir) (List.replicate 6 0 ++ [1]) (by decide +kernel) (by decide +kernel), ⟨⟨exViewEnv, selected exViewEnv exLinkDir, .ok []⟩, ?_, rfl⟩, ?_,
    by decide +kernel, by decide +kernel⟩
  · refine List.mem_of_getElem? (i := 0) ?_
    rfl
  · intro w hw
    have hj : w.job ∈ (twoAccepts exViewEnv (exAgain exViewEnv) exLinkDir (List.replicate 6 0 ++ [1])).1.map Accepting.job := List.mem_map.2 ⟨w, hw, rfl⟩
    rw [twoAccepts_jobs] at hj
    have hs : w.sel = selected exViewEnv exLinkDir := by
      simp only [List.mem_cons, List.not_mem_nil, or_false] at hj
      rcases hj with hj | hj
      · exact congrArg Prod.snd hj
      · exact (congrArg Prod.snd hj).trans (by decide +kernel)
    rw [hs]
    have : (selected exViewEnv exLinkDir).all (fun e => e.dest.head? == some (str "d")) = true := by decide +kernel
    rw [List.all_eq_true] at this
    exact fun e he => eq_of_beq (this e he)

/-- **C117 refuted** for owner and permissions: one accept has copied the new `d/g` beside its place and is stopped; the other completes and reports success; the first goes on, moves its copy over the accepted file and is killed
before it sets the owner.  `d/g` belongs to root and no longer to user 7, and nothing is left in the storage that could tell. -/
theorem C117_refuted_owner : ∃ ws st', Together exTwo ws st' ∧ Spec.AtOnce exViewEnv exTwo (ws.map Accepting.job) ∧ (∃ w ∈ ws, w.left = .ok [] ∧ w.sel = changes exViewEnv exTwo) ∧
    (exTwo.upper.get [str "F4", str "d", str "g"]).map (·.uid) = some 7 ∧ (st'.lower.get [str "d", str "g"]).map (·.uid) = some 0 ∧ st'.upper.get [str "F4", str "d", str "g"] = none := by
  have h := together_ex (st := exTwo) (List.replicate 4 1 ++ List.replicate 14 0 ++ [1]) (by decide +kernel) (by decide +kernel) (by decide +kernel)
  refine ⟨_, _, h.1, h.2, ⟨⟨exViewEnv, selected exViewEnv exTwo, .ok []⟩, ?_, rfl, by decide +kernel⟩, by decide +kernel, by decide +kernel, by decide +kernel⟩
  refine List.mem_of_getElem? (i := 0) ?_
  rfl

end SB
