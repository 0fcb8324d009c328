import Verif.Model.MountLife
import Verif.Props.Mounts

/-! # C104: the overlays of a sandbox are mounted exactly while it runs -/

namespace SB

/-- The mounts at or below a directory, in the order of mounting. -/
def Spec.mountsIn (base : Path) (t : List MountEntry) : List MountEntry := t.filter fun m => decide (base <+: m.dir)

def Spec.mountsOutside (base : Path) (t : List MountEntry) : List MountEntry := t.filter fun m => !decide (base <+: m.dir)

/-- What others mount has nothing to do with the sandbox's directory: it is neither in it nor above it. -/
def Spec.MountsElsewhere (base : Path) : LifeOp → Prop
  | .mountOther e => NormalPath e.dir ∧ ¬ e.dir <+: base ∧ ¬ base <+: e.dir
  | _ => True

/-- Before the first start: nothing is mounted in the sandbox's directory. -/
structure Spec.Unstarted (base : Path) (s : MountLife) : Prop where
  none : Spec.mountsIn base s.table = []
  normal : ∀ m ∈ s.table, NormalPath m.dir
  stopped : s.running = false ∧ s.pid = false

structure LifeInv (base : Path) (s : MountLife) : Prop where
  normal : ∀ m ∈ s.table, NormalPath m.dir
  visible : Spec.NoneHidden base s.table
  /-- only overlays are mounted in the sandbox's directory -/
  overlays : ∀ m ∈ s.table, base <+: m.dir → ∃ h, m.dir = base ++ [str "overlay", h]

theorem unmountAll_life {base : Path} {s : MountLife} (h : LifeInv base s) : unmountAll base s.table = Spec.mountsOutside base s.table := by
  rw [C32_effect base s.table h.normal h.visible]
  unfold Spec.mountsOutside
  apply List.filter_congr
  intro m _
  have : (m.dir = base ∨ Below base m.dir) ↔ base <+: m.dir := by
    rw [below_iff]
    constructor
    · rintro (h | h)
      · rw [h]
      · exact h.1
    · intro hp
      by_cases he : m.dir = base
      · exact .inl he
      · exact .inr ⟨hp, fun hh => he hh.symm⟩
  simp [this]

theorem lifeInv_unmounted {base : Path} {s : MountLife} (h : LifeInv base s) (r p : Bool) : LifeInv base ⟨unmountAll base s.table, r, p⟩ := by
  rw [unmountAll_life h]
  have hsub : (Spec.mountsOutside base s.table).Sublist s.table := List.filter_sublist
  exact ⟨fun m hm => h.normal m (hsub.mem hm), h.visible.sublist hsub, fun m hm => h.overlays m (hsub.mem hm)⟩

theorem mem_overlayEntries {base : Path} {ms : List MountHash} {m : MountEntry} (h : m ∈ overlayEntries base ms) : ∃ h ∈ ms, m.dir = base ++ [str "overlay", h.hash] := by
  obtain ⟨x, hx, rfl⟩ := List.mem_map.1 h
  exact ⟨x, hx, rfl⟩

theorem noneHidden_append {base : Path} {t l : List MountEntry} (ht : Spec.NoneHidden base t) (hl : Spec.NoneHidden base l)
    (h : ∀ a ∈ t, ∀ b ∈ l, base <+: a.dir → b.dir <+: a.dir → b.dir = a.dir) : Spec.NoneHidden base (t ++ l) := by
  unfold Spec.NoneHidden at *
  rw [List.pairwise_append]
  exact ⟨ht, hl, h⟩

theorem two_below {base : Path} {a b : Name} (h : base ++ [str "overlay", a] <+: base ++ [str "overlay", b]) : base ++ [str "overlay", a] = base ++ [str "overlay", b] :=
  h.eq_of_length (by simp)

theorem lifeInv_step {base : Path} {ms : List MountHash} (hms : ∀ m ∈ ms, NormalPath (base ++ [str "overlay", m.hash])) {s : MountLife} (h : LifeInv base s) (op : LifeOp)
    (ho : Spec.MountsElsewhere base op) : LifeInv base (lifeStep base ms s op) := by
  cases op with
  | start n ready =>
    simp only [lifeStep]
    split
    · exact h
    · have hov : ∀ m ∈ (overlayEntries base ms).take n, ∃ x ∈ ms, m.dir = base ++ [str "overlay", x.hash] := fun m hm =>
        mem_overlayEntries (List.mem_of_mem_take hm)
      refine ⟨?_, ?_, ?_⟩
      · intro m hm
        rcases List.mem_append.1 hm with hm | hm
        · exact h.normal m hm
        · obtain ⟨x, hx, he⟩ := hov m hm
          rw [he]
          exact hms x hx
      · refine noneHidden_append h.visible ?_ ?_
        · refine List.Pairwise.imp_of_mem (R := fun _ _ => True) ?_ (List.pairwise_of_forall fun _ _ => trivial)
          intro a b ha hb _ _ hp
          obtain ⟨x, _, hx⟩ := hov a ha
          obtain ⟨y, _, hy⟩ := hov b hb
          rw [hx, hy] at hp ⊢
          exact two_below hp
        · intro a ha b hb hab hp
          obtain ⟨y, _, hy⟩ := hov b hb
          obtain ⟨x, hx⟩ := h.overlays a ha hab
          rw [hx, hy] at hp ⊢
          exact two_below hp
      · intro m hm hb
        rcases List.mem_append.1 hm with hm | hm
        · exact h.overlays m hm hb
        · obtain ⟨x, _, he⟩ := hov m hm
          exact ⟨_, he⟩
  | died => exact ⟨h.normal, h.visible, h.overlays⟩
  | query => exact ⟨h.normal, h.visible, h.overlays⟩
  | stop => exact lifeInv_unmounted h _ _
  | stopAll =>
    simp only [lifeStep]
    split
    · exact lifeInv_unmounted h _ _
    · exact h
  | mountOther e =>
    obtain ⟨h1, h2, h3⟩ := ho
    refine ⟨?_, ?_, ?_⟩
    · intro m hm
      rcases List.mem_append.1 hm with hm | hm
      · exact h.normal m hm
      · rw [List.mem_singleton.1 hm]; exact h1
    · refine noneHidden_append h.visible (by simp [Spec.NoneHidden]) ?_
      intro a ha b hb hab hp
      rw [List.mem_singleton.1 hb] at hp ⊢
      rcases List.prefix_or_prefix_of_prefix hp hab with h | h
      · exact absurd h h2
      · exact absurd h h3
    · intro m hm hb
      rcases List.mem_append.1 hm with hm | hm
      · exact h.overlays m hm hb
      · rw [List.mem_singleton.1 hm] at hb
        exact absurd hb h3

theorem unstarted_inv {base : Path} {s : MountLife} (h : Spec.Unstarted base s) : LifeInv base s := by
  have hno : ∀ m ∈ s.table, ¬ base <+: m.dir := by
    intro m hm hb
    have : m ∈ Spec.mountsIn base s.table := List.mem_filter.2 ⟨hm, by simpa using hb⟩
    rw [h.none] at this
    cases this
  refine ⟨h.normal, ?_, fun m hm hb => absurd hb (hno m hm)⟩
  refine List.Pairwise.imp_of_mem (R := fun _ _ => True) ?_ (List.pairwise_of_forall fun _ _ => trivial)
  intro a b ha _ _ hab
  exact absurd hab (hno a ha)

theorem lifeInv_run {base : Path} {ms : List MountHash} (hms : ∀ m ∈ ms, NormalPath (base ++ [str "overlay", m.hash])) :
    ∀ {ops : List LifeOp} {s : MountLife}, LifeInv base s → (∀ o ∈ ops, Spec.MountsElsewhere base o) → LifeInv base (lifeRun base ms s ops)
  | [], _, h, _ => h
  | o :: r, s, h, ho => lifeInv_run hms (ops := r) (s := lifeStep base ms s o) (lifeInv_step hms h o (ho o (by simp))) fun o' h' => ho o' (by simp [h'])

/-- **C104**: after `stop` nothing is mounted in the sandbox's directory and nothing else was unmounted, whatever happened before: starts that failed half-way, processes
killed, several layers of mounts. -/
theorem C104_stop (base : Path) (ms : List MountHash) (hms : ∀ m ∈ ms, NormalPath (base ++ [str "overlay", m.hash])) (s : MountLife) (hs : Spec.Unstarted base s)
    (ops : List LifeOp) (ho : ∀ o ∈ ops, Spec.MountsElsewhere base o) :
    Spec.mountsIn base (lifeRun base ms s (ops ++ [.stop])).table = [] ∧
    Spec.mountsOutside base (lifeRun base ms s (ops ++ [.stop])).table = Spec.mountsOutside base (lifeRun base ms s ops).table := by
  have hi := lifeInv_run hms (unstarted_inv hs) ho
  have e : (lifeRun base ms s (ops ++ [.stop])).table = Spec.mountsOutside base (lifeRun base ms s ops).table := by
    unfold lifeRun
    rw [List.foldl_append]
    exact unmountAll_life hi
  rw [e]
  unfold Spec.mountsIn Spec.mountsOutside
  refine ⟨?_, by rw [List.filter_filter]; simp⟩
  rw [List.filter_filter]
  refine List.filter_eq_nil_iff.2 fun m _ => ?_
  simp

/-- A history without accidents: every start completes and the first process only ends through `stop`. -/
def Spec.NoAccident (ms : List MountHash) : LifeOp → Prop
  | .start n ready => ms.length ≤ n ∧ ready = true
  | .died => False
  | _ => True

theorem mountsIn_append (base : Path) (a b : List MountEntry) : Spec.mountsIn base (a ++ b) = Spec.mountsIn base a ++ Spec.mountsIn base b := List.filter_append ..

theorem mountsIn_overlays (base : Path) (ms : List MountHash) : Spec.mountsIn base (overlayEntries base ms) = overlayEntries base ms := by
  refine List.filter_eq_self.2 fun m hm => ?_
  obtain ⟨x, _, he⟩ := mem_overlayEntries hm
  rw [he]
  simp

theorem mountsIn_unmounted {base : Path} {s : MountLife} (h : LifeInv base s) : Spec.mountsIn base (unmountAll base s.table) = [] := by
  rw [unmountAll_life h]
  unfold Spec.mountsIn Spec.mountsOutside
  rw [List.filter_filter]
  refine List.filter_eq_nil_iff.2 fun m _ => ?_
  simp

/-- **C104**, without accidents: while the sandbox runs each of its overlays is mounted exactly once, and when it does not run none is; whatever the order of starts,
stops and other mounts, and however often. -/
theorem C104_once_partial (base : Path) (ms : List MountHash) (hms : ∀ m ∈ ms, NormalPath (base ++ [str "overlay", m.hash])) (s : MountLife) (hs : Spec.Unstarted base s)
    (ops : List LifeOp) (ho : ∀ o ∈ ops, Spec.MountsElsewhere base o) (hn : ∀ o ∈ ops, Spec.NoAccident ms o) :
    Spec.mountsIn base (lifeRun base ms s ops).table =
      if (lifeRun base ms s ops).running then ms.map (fun m => ⟨base ++ [str "overlay", m.hash], str "overlay"⟩) else [] := by
  have key : ∀ (ops : List LifeOp) (s : MountLife), LifeInv base s → Spec.mountsIn base s.table = (if s.running then overlayEntries base ms else []) → s.pid = s.running →
      (∀ o ∈ ops, Spec.MountsElsewhere base o) → (∀ o ∈ ops, Spec.NoAccident ms o) →
      Spec.mountsIn base (lifeRun base ms s ops).table = if (lifeRun base ms s ops).running then overlayEntries base ms else [] := by
    intro ops
    induction ops with
    | nil => exact fun s _ h _ _ _ => h
    | cons o r ih =>
      intro s hi h hp ho hn
      have hi' := lifeInv_step hms hi o (ho o (by simp))
      have ho1 := ho o (by simp)
      have hn1 := hn o (by simp)
      refine ih (lifeStep base ms s o) hi' ?_ ?_ (fun o' h' => ho o' (by simp [h'])) (fun o' h' => hn o' (by simp [h']))
      · cases o with
        | start n ready =>
          obtain ⟨hl, rfl⟩ := hn1
          by_cases hrun : s.running = true
          · have e : lifeStep base ms s (.start n true) = s := if_pos hrun
            rw [e]
            exact h
          · have e : lifeStep base ms s (.start n true) = ⟨s.table ++ (overlayEntries base ms).take n, true && decide (ms.length ≤ n), decide (ms.length ≤ n)⟩ := if_neg hrun
            rw [e]
            have hr := hrun
            have hr : s.running = false := by simpa using hr
            rw [hr] at h
            have : (overlayEntries base ms).take n = overlayEntries base ms := List.take_of_length_le (by simpa [overlayEntries] using hl)
            simp only [hl, this, decide_true, Bool.and_self, if_true]
            rw [mountsIn_append, mountsIn_overlays, h]
            rfl
        | died => exact absurd hn1 (by simp [Spec.NoAccident])
        | query => exact h
        | stop => exact mountsIn_unmounted hi
        | stopAll =>
          simp only [lifeStep]
          split
          · exact mountsIn_unmounted hi
          · exact h
        | mountOther e =>
          simp only [lifeStep]
          rw [mountsIn_append, h]
          have : Spec.mountsIn base [e] = [] := List.filter_eq_nil_iff.2 fun m hm => by
            rw [List.mem_singleton.1 hm]
            simpa using ho1.2.2
          rw [this, List.append_nil]
          rfl
      · cases o with
        | start n ready =>
          obtain ⟨hl, rfl⟩ := hn1
          simp only [lifeStep]
          split
          · exact hp
          · simp [hl]
        | died => exact absurd hn1 (by simp [Spec.NoAccident])
        | query => simp [lifeStep, hp]
        | stop => rfl
        | stopAll =>
          simp only [lifeStep]
          split
          · rfl
          · exact hp
        | mountOther e => exact hp
  refine key ops s (unstarted_inv hs) ?_ ?_ ho hn
  · rw [hs.none, hs.stopped.1]
    rfl
  · rw [hs.stopped.1, hs.stopped.2]

/-- **C104**, the accident in general: every time the first process ends otherwise than through `stop` and the sandbox is started again, one more layer of all overlays is mounted over the
previous ones; asking for the sandbox in between (`query`) unmounts nothing. -/
theorem C104_layers (base : Path) (ms : List MountHash) (s : MountLife) (hs : s.running = false) (k : Nat) :
    Spec.mountsIn base (lifeRun base ms s (List.replicate k [.start ms.length true, .died, .query]).flatten).table =
      Spec.mountsIn base s.table ++ (List.replicate k (ms.map fun m => (⟨base ++ [str "overlay", m.hash], str "overlay"⟩ : MountEntry))).flatten := by
  induction k generalizing s with
  | zero => simp [lifeRun]
  | succ k ih =>
    rw [List.replicate_succ, List.flatten_cons, List.replicate_succ, List.flatten_cons]
    unfold lifeRun at ih ⊢
    rw [List.foldl_append]
    have e : List.foldl (lifeStep base ms) s [.start ms.length true, .died, .query] = ⟨s.table ++ overlayEntries base ms, false, false⟩ := by
      have e1 : lifeStep base ms s (.start ms.length true) = ⟨s.table ++ (overlayEntries base ms).take ms.length, true && decide (ms.length ≤ ms.length), decide (ms.length ≤ ms.length)⟩ :=
        if_neg (by simp [hs])
      have e2 : (overlayEntries base ms).take ms.length = overlayEntries base ms := List.take_of_length_le (by simp [overlayEntries])
      rw [e2] at e1
      rw [List.foldl_cons, e1]
      simp [lifeStep]
    rw [e, ih _ rfl]
    dsimp only
    rw [mountsIn_append, mountsIn_overlays, List.append_assoc]
    rfl

/-- What may concern the pid file: another start, a `stop`, or somebody who asks for the sandbox after its first process has ended. -/
def Spec.Noticed (later : List LifeOp) : Prop := (∃ n ready, LifeOp.start n ready ∈ later) ∨ .stop ∈ later ∨ .stopAll ∈ later ∨ ∃ a b, later = a ++ b ∧ .died ∈ a ∧ .query ∈ b

/-- **C104 (partial)** for `stop --all`: it unmounts everything of a sandbox whose start got as far as mounting all overlays, be its first process alive or not, as long as nobody has asked for the
sandbox (which removes the pid file) after its first process ended. -/
theorem C104_stop_all_partial (base : Path) (ms : List MountHash) (hms : ∀ m ∈ ms, NormalPath (base ++ [str "overlay", m.hash])) (s : MountLife) (hs : Spec.Unstarted base s)
    (ops later : List LifeOp) (ho : ∀ o ∈ ops ++ later, Spec.MountsElsewhere base o) (hl : ¬ Spec.Noticed later) :
    Spec.mountsIn base (lifeRun base ms s (ops ++ [.start ms.length true] ++ later ++ [.stopAll])).table = [] ∧
    Spec.mountsOutside base (lifeRun base ms s (ops ++ [.start ms.length true] ++ later ++ [.stopAll])).table =
      Spec.mountsOutside base (lifeRun base ms s (ops ++ [.start ms.length true] ++ later)).table ∧
    (lifeRun base ms s (ops ++ [.start ms.length true] ++ later ++ [.stopAll])).running = false := by
  have hi : LifeInv base (lifeRun base ms s (ops ++ [.start ms.length true] ++ later)) := by
    refine lifeInv_run hms (unstarted_inv hs) fun o h => ?_
    rcases List.mem_append.1 h with h | h
    · rcases List.mem_append.1 h with h | h
      · exact ho o (List.mem_append_left _ h)
      · rw [List.mem_singleton.1 h]; trivial
    · exact ho o (List.mem_append_right _ h)
  have hrp : ∀ (l : List LifeOp) (t : MountLife), (t.running = true → t.pid = true) → (lifeRun base ms t l).running = true → (lifeRun base ms t l).pid = true := by
    intro l
    induction l with
    | nil => exact fun t h => h
    | cons o r ih =>
      intro t h
      refine ih (lifeStep base ms t o) ?_
      cases o with
      | start n ready =>
        simp only [lifeStep]
        split
        · exact h
        · simp
      | died => simp [lifeStep]
      | query => simp only [lifeStep, Bool.and_eq_true]; exact fun h' => ⟨h h', h'⟩
      | stop => simp [lifeStep]
      | stopAll => simp only [lifeStep]; split <;> simp_all
      | mountOther e => exact h
  have hlate : ∀ (l : List LifeOp) (t : MountLife), ¬ Spec.Noticed l → t.pid = true → (t.running = false → .query ∉ l) → (lifeRun base ms t l).pid = true := by
    intro l
    induction l with
    | nil => exact fun t _ h _ => h
    | cons o r ih =>
      intro t hn hp hq
      have hn' : ¬ Spec.Noticed r := by
        rintro (⟨n, ready, h⟩ | h | h | ⟨a, b, rfl, h1, h2⟩)
        · exact hn (.inl ⟨n, ready, List.mem_cons_of_mem _ h⟩)
        · exact hn (.inr (.inl (List.mem_cons_of_mem _ h)))
        · exact hn (.inr (.inr (.inl (List.mem_cons_of_mem _ h))))
        · exact hn (.inr (.inr (.inr ⟨o :: a, b, rfl, List.mem_cons_of_mem _ h1, h2⟩)))
      have go := ih (lifeStep base ms t o) hn'
      cases o with
      | start n ready => exact absurd (.inl ⟨n, ready, List.mem_cons_self⟩) hn
      | died => exact go hp fun _ h => hn (.inr (.inr (.inr ⟨[.died], r, rfl, List.mem_singleton.2 rfl, h⟩)))
      | query =>
        have hr : t.running = true := by
          cases h : t.running with
          | true => rfl
          | false => exact absurd List.mem_cons_self (hq h)
        exact go (by simp [lifeStep, hp, hr]) fun h => by simp [lifeStep, hr] at h
      | stop => exact absurd (.inr (.inl List.mem_cons_self)) hn
      | stopAll => exact absurd (.inr (.inr (.inl List.mem_cons_self))) hn
      | mountOther e => exact go hp fun h h' => hq h (List.mem_cons_of_mem _ h')
  have hpid : (lifeRun base ms s (ops ++ [.start ms.length true] ++ later)).pid = true := by
    have e : lifeRun base ms s (ops ++ [.start ms.length true] ++ later) = lifeRun base ms (lifeStep base ms (lifeRun base ms s ops) (.start ms.length true)) later := by
      unfold lifeRun
      rw [List.foldl_append, List.foldl_append]
      rfl
    have h0 := hrp ops s (fun h => by rw [hs.stopped.1] at h; cases h)
    rw [e]
    have hboth : (lifeStep base ms (lifeRun base ms s ops) (.start ms.length true)).pid = true ∧ (lifeStep base ms (lifeRun base ms s ops) (.start ms.length true)).running = true := by
      simp only [lifeStep]
      split
      · rename_i hr
        exact ⟨h0 hr, hr⟩
      · simp
    exact hlate later _ hl hboth.1 fun h => by rw [hboth.2] at h; cases h
  have e : lifeRun base ms s (ops ++ [.start ms.length true] ++ later ++ [.stopAll]) =
      ⟨unmountAll base (lifeRun base ms s (ops ++ [.start ms.length true] ++ later)).table, false, false⟩ := by
    have e1 : lifeRun base ms s (ops ++ [.start ms.length true] ++ later ++ [.stopAll]) = lifeStep base ms (lifeRun base ms s (ops ++ [.start ms.length true] ++ later)) .stopAll := by
      unfold lifeRun
      rw [List.foldl_append]
      rfl
    rw [e1]
    exact if_pos hpid
  rw [e]
  refine ⟨mountsIn_unmounted hi, ?_, rfl⟩
  dsimp only
  rw [unmountAll_life hi]
  unfold Spec.mountsOutside
  rw [List.filter_filter]
  simp

/-- A host with two file systems. -/
def exLife : MountLife := ⟨[⟨[], str "ext4"⟩, ⟨[str "home"], str "ext4"⟩], false, false⟩

def exLifeBase : Path := [str "s", str "box"]

def exLifeMounts : List MountHash := [⟨str "F4", []⟩, ⟨str "F5", [str "home"]⟩]

theorem exLife_unstarted : Spec.Unstarted exLifeBase exLife := ⟨by decide +kernel, by decide +kernel, by decide⟩

theorem exLife_normal : ∀ m ∈ exLifeMounts, NormalPath (exLifeBase ++ [str "overlay", m.hash]) := by decide +kernel

example : (lifeRun exLifeBase exLifeMounts exLife [.start 2 true, .mountOther ⟨[str "mnt"], str "xfs"⟩]).running = true ∧
    (Spec.mountsIn exLifeBase (lifeRun exLifeBase exLifeMounts exLife [.start 2 true, .mountOther ⟨[str "mnt"], str "xfs"⟩]).table).length = 2 := by decide +kernel

example : ¬ Spec.Noticed [.query, .mountOther ⟨[str "mnt"], str "xfs"⟩, .died] := by
  rintro (⟨n, r, h⟩ | h | h | ⟨a, b, h, h1, h2⟩)
  · simp at h
  · simp at h
  · simp at h
  · rcases a with _ | ⟨x, _ | ⟨y, _ | ⟨z, a⟩⟩⟩
    · simp at h1
    · cases h; simp at h1
    · cases h; simp at h1
    · have hb : a ++ b = [] := by
        have := congrArg List.length h
        simp only [List.length_cons, List.length_append, List.length_nil] at this
        exact List.length_eq_zero_iff.1 (by rw [List.length_append]; omega)
      rw [(List.append_eq_nil_iff.1 hb).2] at h2
      cases h2

/-- Three accidents: the two overlays are mounted three times. -/
example : (Spec.mountsIn exLifeBase (lifeRun exLifeBase exLifeMounts exLife (List.replicate 3 [.start 2 true, .died, .query]).flatten).table).length = 6 := by decide +kernel

/-- **C104 refuted** when the first process ends otherwise than through `stop` (killed, out of memory): its overlays stay mounted, and the next start mounts a second
overlay with the same upper and work directory over each of them - which the kernel's documentation calls undefined behaviour. -/
theorem C104_refuted_died : Spec.mountsIn exLifeBase (lifeRun exLifeBase exLifeMounts exLife [.start 2 true, .died, .start 2 true]).table =
    overlayEntries exLifeBase exLifeMounts ++ overlayEntries exLifeBase exLifeMounts := by decide +kernel

/-- **C104 refuted** for starts that fail: what was mounted stays mounted, although the sandbox does not run. -/
theorem C104_refuted_failed : Spec.mountsIn exLifeBase (lifeRun exLifeBase exLifeMounts exLife [.start 1 true]).table ≠ [] ∧
    Spec.mountsIn exLifeBase (lifeRun exLifeBase exLifeMounts exLife [.start 2 false]).table ≠ [] ∧
    (lifeRun exLifeBase exLifeMounts exLife [.start 1 true]).running = false ∧ (lifeRun exLifeBase exLifeMounts exLife [.start 2 false]).running = false := by decide +kernel

/-- **C104 refuted** for `stop --all`: it passes over a sandbox without pid file - one that failed to mount all overlays, or one whose first process has died and whose pid
file was removed by a `delete` that was not confirmed - and its mounts stay. -/
theorem C104_refuted_stop_all : Spec.mountsIn exLifeBase (lifeRun exLifeBase exLifeMounts exLife [.start 1 true, .stopAll]).table ≠ [] ∧
    Spec.mountsIn exLifeBase (lifeRun exLifeBase exLifeMounts exLife [.start 2 true, .died, .query, .stopAll]).table ≠ [] ∧
    Spec.mountsIn exLifeBase (lifeRun exLifeBase exLifeMounts exLife [.start 2 true, .died, .query, .stop]).table = [] := by decide +kernel

end SB
