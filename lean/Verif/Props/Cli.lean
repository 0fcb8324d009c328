import Verif.Spec.Cli
import Verif.Props.NewLast

/-!
# C110: the command line
-/

namespace SB
open SB.Cli

/-- One item, applied to what was given so far. -/
def applyItem : Spec.Item → Given → Option Given
  | .flag f, g => setFlag f g
  | .value o v, g => setOpt o v g

def applyItems : List Spec.Item → Given → Option Given
  | [], g => some g
  | i :: r, g => (applyItem i g).bind (applyItems r)

theorem applyItems_append (i1 i2 : List Spec.Item) (g : Given) : applyItems (i1 ++ i2) g = (applyItems i1 g).bind (applyItems i2) := by
  induction i1 generalizing g with
  | nil => rfl
  | cons i r ih =>
    show (applyItem i g).bind (applyItems (r ++ i2)) = ((applyItem i g).bind (applyItems r)).bind (applyItems i2)
    cases applyItem i g with
    | none => rfl
    | some g1 => exact ih g1

/-! ### What the items mean -/

/-- The meaning of items, for the whole of what is collected. -/
structure Collected (items : List Spec.Item) (g : Given) : Prop where
  means : Spec.Means items g.args g.json
  all : g.all = true ↔ .flag .all ∈ items
  yes : g.yes = true ↔ .flag .yes ∈ items

theorem collected_nil : Collected [] {} := by
  refine ⟨?_, by simp, by simp⟩
  constructor <;> simp [Spec.pieces]

theorem pieces_snoc (o : Opt) (items : List Spec.Item) (i : Spec.Item) :
    Spec.pieces o (items ++ [i]) = match i with
      | .value o' v => if o' = o then extend (Spec.pieces o items) (splitComma v) else Spec.pieces o items
      | .flag _ => Spec.pieces o items := by
  cases i with
  | flag f => simp [Spec.pieces, Spec.pieceOf, Spec.Item.about]
  | value o' v =>
    by_cases e : o' = o
    · subst e
      by_cases m : (Spec.Key.opt o' : Spec.Key) ∈ items.map Spec.Item.about
      · simp [Spec.pieces, Spec.pieceOf, m, Spec.Item.about, extend]
      · have : items.flatMap (Spec.pieceOf o') = [] := by
          rw [List.flatMap_eq_nil_iff]
          intro x hx
          cases x with
          | flag f => rfl
          | value o2 v2 =>
            by_cases e2 : o2 = o'
            · subst e2; exact absurd (List.mem_map.mpr ⟨_, hx, rfl⟩) m
            · simp [Spec.pieceOf, e2]
        simp only [Spec.pieces, m, if_false, extend]
        simp [Spec.Item.about, Spec.pieceOf]
        exact List.flatMap_eq_nil_iff.mp this
    · have e' : ¬ o = o' := fun h => e h.symm
      simp [Spec.pieces, Spec.pieceOf, e, e', Spec.Item.about]

theorem mem_about_flag {f : Flag} {items : List Spec.Item} : (.flag f : Spec.Key) ∈ items.map Spec.Item.about ↔ .flag f ∈ items := by
  rw [List.mem_map]
  constructor
  · rintro ⟨x, hx, e⟩
    cases x with
    | flag f' => cases e; exact hx
    | value o v => cases e
  · exact fun h => ⟨_, h, rfl⟩

theorem mem_about_opt {o : Opt} {items : List Spec.Item} : (.opt o : Spec.Key) ∈ items.map Spec.Item.about ↔ ∃ v, .value o v ∈ items := by
  rw [List.mem_map]
  constructor
  · rintro ⟨x, hx, e⟩
    cases x with
    | flag f' => cases e
    | value o v => cases e; exact ⟨v, hx⟩
  · rintro ⟨v, h⟩; exact ⟨_, h, rfl⟩

/-- A switch not given so far. -/
theorem collected_flag {items : List Spec.Item} {g g' : Given} (f : Flag) (hc : Collected items g) (h : setFlag f g = some g') :
    Collected (items ++ [.flag f]) g' ∧ .flag f ∉ items := by
  obtain ⟨⟨h1, h2, h3, h4, h5, h6, h7, h8, h9, h10, h11, h12, h13⟩, h14, h15⟩ := hc
  cases f <;> simp only [setFlag] at h <;> split at h <;> (try cases h) <;> rename_i hn <;> refine ⟨⟨⟨?_, ?_, ?_, ?_, ?_, ?_, ?_, ?_, ?_, ?_, ?_, ?_, ?_⟩, ?_, ?_⟩, ?_⟩ <;>
    simp_all [pieces_snoc]

theorem netEnum_iff {v : Str} {n : Net} : netEnum v = some n ↔ (v = str "none" ∧ n = .none ∨ v = str "host" ∧ n = .host) := by
  unfold netEnum
  by_cases h1 : v = str "none"
  · subst h1; simp; constructor
    · rintro rfl; exact .inl rfl
    · rintro (h | ⟨h, _⟩)
      · exact h.symm
      · exact absurd h (by decide)
  · by_cases h2 : v = str "host"
    · subst h2; simp [h1]; exact eq_comm
    · simp [h1, h2]

/-- An option with a value: if it is not a repeated one, it was not given so far. -/
theorem collected_opt {items : List Spec.Item} {g g' : Given} (o : Opt) (v : Str) (hc : Collected items g) (hs : Spec.Sensible items) (h : setOpt o v g = some g') :
    Collected (items ++ [.value o v]) g' := by
  obtain ⟨⟨h1, h2, h3, h4, h5, h6, h7, h8, h9, h10, h11, h12, h13⟩, h14, h15⟩ := hc
  cases o <;> simp only [setOpt] at h
  case logLevel =>
    split at h
    · cases h
    · rename_i hn
      cases hp : parseLevel v with
      | none => simp [hp] at h
      | some l =>
        simp only [hp, Option.map_some, Option.some.injEq] at h
        subst h
        have hno : ∀ v', Spec.Item.value .logLevel v' ∉ items := by
          intro v' hv
          obtain ⟨l', hl'⟩ := Option.isSome_iff_exists.mp (hs.level v' hv)
          exact hn (by rw [(h1 l').mpr ⟨v', hv, hl'⟩]; rfl)
        refine ⟨⟨?_, ?_, ?_, ?_, ?_, ?_, ?_, ?_, ?_, ?_, ?_, ?_, ?_⟩, ?_, ?_⟩ <;> simp_all [pieces_snoc]
  case name =>
    split at h
    · cases h
    · rename_i hn
      cases h
      have hno : ∀ v', Spec.Item.value .name v' ∉ items := fun v' hv => hn (by rw [(h2 v').mpr hv]; rfl)
      refine ⟨⟨?_, ?_, ?_, ?_, ?_, ?_, ?_, ?_, ?_, ?_, ?_, ?_, ?_⟩, ?_, ?_⟩ <;> simp_all [pieces_snoc]
      exact fun v' => eq_comm
  case storageDir =>
    split at h
    · cases h
    · rename_i hn
      cases h
      have hno : ∀ v', Spec.Item.value .storageDir v' ∉ items := fun v' hv => hn (by rw [(h3 v').mpr hv]; rfl)
      refine ⟨⟨?_, ?_, ?_, ?_, ?_, ?_, ?_, ?_, ?_, ?_, ?_, ?_, ?_⟩, ?_, ?_⟩ <;> simp_all [pieces_snoc]
      exact fun v' => eq_comm
  case net =>
    split at h
    · cases h
    · rename_i hn
      cases hp : netEnum v with
      | none => simp [hp] at h
      | some n =>
        simp only [hp, Option.map_some, Option.some.injEq] at h
        subst h
        have hno : ∀ v', Spec.Item.value .net v' ∉ items := by
          intro v' hv
          rcases hs.net v' hv with e | e
          · exact hn (by rw [(h4 .none).mpr ⟨v', hv, .inl ⟨e, rfl⟩⟩]; rfl)
          · exact hn (by rw [(h4 .host).mpr ⟨v', hv, .inr ⟨e, rfl⟩⟩]; rfl)
        have hq := netEnum_iff.mp hp
        refine ⟨⟨?_, ?_, ?_, ?_, ?_, ?_, ?_, ?_, ?_, ?_, ?_, ?_, ?_⟩, ?_, ?_⟩ <;> (try simp_all [pieces_snoc]; done)
        intro n'
        constructor
        · intro h; cases h; exact ⟨v, List.mem_append_right _ (by simp), hq⟩
        · rintro ⟨v', hv', hq'⟩
          rcases List.mem_append.mp hv' with hv' | hv'
          · exact absurd hv' (hno v')
          · simp at hv'; subst hv'
            have := netEnum_iff.mpr hq'
            rw [hp] at this; exact this
  case bind =>
    cases h
    refine ⟨⟨?_, ?_, ?_, ?_, ?_, ?_, ?_, ?_, ?_, ?_, ?_, ?_, ?_⟩, ?_, ?_⟩ <;> simp_all [pieces_snoc]
  case mask =>
    cases h
    refine ⟨⟨?_, ?_, ?_, ?_, ?_, ?_, ?_, ?_, ?_, ?_, ?_, ?_, ?_⟩, ?_, ?_⟩ <;> simp_all [pieces_snoc]
  case config =>
    cases h
    refine ⟨⟨?_, ?_, ?_, ?_, ?_, ?_, ?_, ?_, ?_, ?_, ?_, ?_, ?_⟩, ?_, ?_⟩ <;> simp_all [pieces_snoc]

/-- If the items are accepted, the last item is new (or of a repeated option) and its value is known. -/
theorem sensible_snoc {items : List Spec.Item} {g g' : Given} (i : Spec.Item) (hc : Collected items g) (hs : Spec.Sensible items) (h : applyItem i g = some g') :
    Spec.Sensible (items ++ [i]) := by
  have hnew : ∀ k, ¬ Spec.Repeated k → k = i.about → k ∉ items.map Spec.Item.about := by
    intro k hk e hm
    subst e
    cases i with
    | flag f => exact (collected_flag f hc h).2 (mem_about_flag.mp hm)
    | value o v =>
      obtain ⟨v', hv'⟩ := mem_about_opt.mp hm
      cases o <;> simp only [applyItem, setOpt] at h
      case bind => exact hk trivial
      case mask => exact hk trivial
      case config => exact hk trivial
      case logLevel =>
        obtain ⟨l', hl'⟩ := Option.isSome_iff_exists.mp (hs.level v' hv')
        rw [if_pos (by rw [(hc.means.logLevel l').mpr ⟨v', hv', hl'⟩]; rfl)] at h; cases h
      case name => rw [if_pos (by rw [(hc.means.name v').mpr hv']; rfl)] at h; cases h
      case storageDir => rw [if_pos (by rw [(hc.means.storageDir v').mpr hv']; rfl)] at h; cases h
      case net =>
        rcases hs.net v' hv' with e | e
        · rw [if_pos (by rw [(hc.means.net .none).mpr ⟨v', hv', .inl ⟨e, rfl⟩⟩]; rfl)] at h; cases h
        · rw [if_pos (by rw [(hc.means.net .host).mpr ⟨v', hv', .inr ⟨e, rfl⟩⟩]; rfl)] at h; cases h
  constructor
  · intro v hv
    rcases List.mem_append.mp hv with hv | hv
    · exact hs.level v hv
    · simp at hv; subst hv
      simp only [applyItem, setOpt] at h
      split at h
      · cases h
      · cases hp : parseLevel v with
        | none => simp [hp] at h
        | some l => rfl
  · intro v hv
    rcases List.mem_append.mp hv with hv | hv
    · exact hs.net v hv
    · simp at hv; subst hv
      simp only [applyItem, setOpt] at h
      split at h
      · cases h
      · cases hp : netEnum v with
        | none => simp [hp] at h
        | some n => rcases netEnum_iff.mp hp with ⟨e, _⟩ | ⟨e, _⟩ <;> simp [e]
  · intro k hk
    rw [List.map_append, List.count_append]
    by_cases e : k = i.about
    · rw [List.count_eq_zero.mpr (hnew k hk e)]
      have := List.count_le_length (a := k) (l := List.map Spec.Item.about [i])
      simpa using this
    · have : List.count k (List.map Spec.Item.about [i]) = 0 := by
        rw [List.count_eq_zero]; simpa using e
      rw [this]; exact hs.once k hk

theorem sensible_nil : Spec.Sensible [] := ⟨by simp, by simp, by simp⟩

/-- Accepted items are sensible, and what is collected is what they mean. -/
theorem applied (items : List Spec.Item) (g : Given) (h : applyItems items {} = some g) : Spec.Sensible items ∧ Collected items g := by
  induction items using List.reverseRecOn generalizing g with
  | nil => cases h; exact ⟨sensible_nil, collected_nil⟩
  | append_singleton r i ih =>
    rw [applyItems_append] at h
    cases hr : applyItems r {} with
    | none => rw [hr] at h; cases h
    | some g1 =>
      rw [hr] at h
      obtain ⟨hs, hc⟩ := ih g1 hr
      have h' : applyItem i g1 = some g := by
        have : (applyItem i g1).bind (applyItems []) = some g := h
        cases hi : applyItem i g1 with
        | none => rw [hi] at this; cases this
        | some g2 => rw [hi] at this; exact this
      refine ⟨sensible_snoc i hc hs h', ?_⟩
      cases i with
      | flag f => exact (collected_flag f hc h').1
      | value o v => exact collected_opt o v hc hs h'

theorem sensible_init {r : List Spec.Item} {i : Spec.Item} (h : Spec.Sensible (r ++ [i])) : Spec.Sensible r := by
  refine ⟨fun v hv => h.level v (List.mem_append_left _ hv), fun v hv => h.net v (List.mem_append_left _ hv), fun k hk => ?_⟩
  have := h.once k hk
  rw [List.map_append, List.count_append] at this
  omega

/-- Sensible items are accepted. -/
theorem apply_sensible (items : List Spec.Item) (h : Spec.Sensible items) : ∃ g, applyItems items {} = some g := by
  induction items using List.reverseRecOn with
  | nil => exact ⟨_, rfl⟩
  | append_singleton r i ih =>
    obtain ⟨g1, hr⟩ := ih (sensible_init h)
    obtain ⟨hs, hc⟩ := applied r g1 hr
    have hnew : ¬ Spec.Repeated i.about → i.about ∉ r.map Spec.Item.about := by
      intro hk hm
      have := h.once i.about hk
      rw [List.map_append, List.count_append] at this
      have h1 := List.count_pos_iff.mpr hm
      have h2 : List.count i.about (List.map Spec.Item.about [i]) = 1 := by simp
      omega
    suffices ∃ g, applyItem i g1 = some g by
      obtain ⟨g, hg⟩ := this
      refine ⟨g, ?_⟩
      rw [applyItems_append, hr]
      show (applyItem i g1).bind (applyItems []) = some g
      rw [hg]; rfl
    obtain ⟨⟨h1, h2, h3, h4, h5, h6, h7, h8, h9, h10, h11, h12, h13⟩, h14, h15⟩ := hc
    cases i with
    | flag f =>
      have hn : Spec.Item.flag f ∉ r := fun hm => hnew (fun x => x) (mem_about_flag.mpr hm)
      cases f <;> simp only [applyItem, setFlag] <;> simp_all
    | value o v =>
      have hn : ¬ Spec.Repeated (.opt o) → ∀ v', Spec.Item.value o v' ∉ r := fun hk v' hm => hnew hk (mem_about_opt.mpr ⟨v', hm⟩)
      cases o <;> simp only [applyItem, setOpt]
      case bind => exact ⟨_, rfl⟩
      case mask => exact ⟨_, rfl⟩
      case config => exact ⟨_, rfl⟩
      case name =>
        have : g1.args.name = none := by
          cases e : g1.args.name with
          | none => rfl
          | some v' => exact absurd ((h2 v').mp e) (hn (fun x => x) v')
        simp [this]
      case storageDir =>
        have : g1.args.storageDir = none := by
          cases e : g1.args.storageDir with
          | none => rfl
          | some v' => exact absurd ((h3 v').mp e) (hn (fun x => x) v')
        simp [this]
      case logLevel =>
        have : g1.args.logLevel = none := by
          cases e : g1.args.logLevel with
          | none => rfl
          | some l => obtain ⟨v', hv', _⟩ := (h1 l).mp e; exact absurd hv' (hn (fun x => x) v')
        obtain ⟨l, hl⟩ := Option.isSome_iff_exists.mp (h.level v (by simp))
        simp [this, hl]
      case net =>
        have : g1.args.net = none := by
          cases e : g1.args.net with
          | none => rfl
          | some l => obtain ⟨v', hv', _⟩ := (h4 l).mp e; exact absurd hv' (hn (fun x => x) v')
        have : ∃ n, netEnum v = some n := by
          rcases h.net v (by simp) with e | e
          · exact ⟨_, netEnum_iff.mpr (.inl ⟨e, rfl⟩)⟩
          · exact ⟨_, netEnum_iff.mpr (.inr ⟨e, rfl⟩)⟩
        obtain ⟨n, hn'⟩ := this
        simp [*]

/-- clap's check for conflicts is the specification's. -/
theorem conflicts_iff {items : List Spec.Item} {a : Args} {j : Bool} (h : Spec.Means items a j) : conflicts a = false ↔ Spec.NoConflict items := by
  have hn : a.name.isSome = true ↔ Spec.Key.opt .name ∈ items.map Spec.Item.about := by
    rw [Option.isSome_iff_exists, mem_about_opt]
    exact ⟨fun ⟨v, hv⟩ => ⟨v, (h.name v).mp hv⟩, fun ⟨v, hv⟩ => ⟨v, (h.name v).mpr hv⟩⟩
  have hc : a.config.isSome = true ↔ Spec.Key.opt .config ∈ items.map Spec.Item.about := by
    rw [h.config, Spec.pieces]; split <;> simp_all
  have h1 : a.new = true ↔ Spec.Key.flag .new ∈ items.map Spec.Item.about := h.new.trans mem_about_flag.symm
  have h2 : a.last = true ↔ Spec.Key.flag .last ∈ items.map Spec.Item.about := h.last.trans mem_about_flag.symm
  have h3 : a.noConfig = true ↔ Spec.Key.flag .noConfig ∈ items.map Spec.Item.about := h.noConfig.trans mem_about_flag.symm
  constructor
  · intro hf
    simp only [conflicts, Bool.or_eq_false_iff, Bool.and_eq_false_iff] at hf
    constructor <;> rintro ⟨x, y⟩
    · have := hn.mpr x; have := h1.mpr y; simp_all
    · have := hn.mpr x; have := h2.mpr y; simp_all
    · have := h1.mpr x; have := h2.mpr y; simp_all
    · have := hc.mpr x; have := h3.mpr y; simp_all
  · rintro ⟨q1, q2, q3, q4⟩
    rw [← hn, ← h1] at q1
    rw [← hn, ← h2] at q2
    rw [← h1, ← h2] at q3
    rw [← hc, ← h3] at q4
    cases e1 : a.name.isSome <;> cases e2 : a.new <;> cases e3 : a.last <;> cases e4 : a.config.isSome <;> cases e5 : a.noConfig <;> simp_all [conflicts]

/-! ### Words -/

theorem splitEq_plain {n : Str} (h : '=' ∉ n) : splitEq n = (n, none) := by
  induction n with
  | nil => rfl
  | cons c r ih =>
    have h1 : c ≠ '=' := fun e => h (by simp [e])
    simp only [splitEq, if_neg h1, ih (fun m => h (List.mem_cons_of_mem _ m))]

theorem splitEq_eq {n : Str} (v : Str) (h : '=' ∉ n) : splitEq (n ++ '=' :: v) = (n, some v) := by
  induction n with
  | nil => simp [splitEq]
  | cons c r ih =>
    have h1 : c ≠ '=' := fun e => h (by simp [e])
    show splitEq (c :: (r ++ '=' :: v)) = _
    simp only [splitEq, if_neg h1, ih (fun m => h (List.mem_cons_of_mem _ m))]

theorem splitEq_back (t : Str) : (∀ v, (splitEq t).2 = some v → t = (splitEq t).1 ++ '=' :: v) ∧ ((splitEq t).2 = none → t = (splitEq t).1) := by
  induction t with
  | nil => simp [splitEq]
  | cons c r ih =>
    by_cases e : c = '='
    · subst e; simp [splitEq]
    · simp only [splitEq, if_neg e]
      refine ⟨fun v hv => ?_, fun hv => ?_⟩
      · rw [List.cons_append, ← ih.1 v hv]
      · rw [← ih.2 hv]

theorem flagName_eq (f : Flag) : '=' ∉ Spec.flagName f := by cases f <;> decide
theorem optName_eq (o : Opt) : '=' ∉ Spec.optName o := by cases o <;> decide

theorem flagOf_name {pl : Option Action} {f : Flag} (h : Spec.Allowed pl f) : flagOf pl (Spec.flagName f) = some f := by
  cases f
  case all => cases (show pl = some .stop from h); decide
  case yes => cases (show pl = some .delete from h); decide
  all_goals rcases pl with _ | a <;> (try cases a) <;> decide

theorem ite_some {α : Type} {c : Prop} [Decidable c] {x y : α} {r : Option α} (h : (if c then some x else r) = some y) : (c ∧ x = y) ∨ r = some y := by
  by_cases hc : c
  · rw [if_pos hc] at h; exact .inl ⟨hc, Option.some.inj h⟩
  · rw [if_neg hc] at h; exact .inr h

theorem flagOf_some {pl : Option Action} {n : Str} {f : Flag} (h : flagOf pl n = some f) : n = Spec.flagName f ∧ Spec.Allowed pl f := by
  unfold flagOf at h
  iterate 6
    rcases ite_some h with ⟨rfl, rfl⟩ | h
    · exact ⟨rfl, trivial⟩
  iterate 2
    rcases ite_some h with ⟨⟨rfl, rfl⟩, rfl⟩ | h
    · exact ⟨rfl, rfl⟩
  cases h

theorem optOf_name (o : Opt) : optOf (Spec.optName o) = some o := by cases o <;> decide

theorem optOf_some {n : Str} {o : Opt} (h : optOf n = some o) : n = Spec.optName o := by
  unfold optOf at h
  iterate 7
    rcases ite_some h with ⟨rfl, rfl⟩ | h
    · rfl
  cases h

theorem flagOf_opt (pl : Option Action) (o : Opt) : flagOf pl (Spec.optName o) = none := by
  cases h : flagOf pl (Spec.optName o) with
  | none => rfl
  | some f =>
    have := (flagOf_some h).1
    revert this
    cases o <;> cases f <;> decide

theorem actionOf_name (a : Action) : actionOf (Spec.actionName a) = some a := by cases a <;> decide

theorem actionOf_some {n : Str} {a : Action} (h : actionOf n = some a) : n = Spec.actionName a := by
  unfold actionOf at h
  iterate 9
    rcases ite_some h with ⟨rfl, rfl⟩ | h
    · rfl
  cases h

theorem actionOf_dash {w : Str} (h : w.head? = some '-') : actionOf w = none := by
  cases e : actionOf w with
  | none => rfl
  | some a =>
    rw [actionOf_some e] at h
    revert h
    cases a <;> decide

theorem word_long (pl : Option Action) (pend : Option Opt) (g : Given) (t : Str) : word pl pend g (str "--" ++ t) = longWord pl pend g t := by
  unfold word
  rw [if_pos (by rw [List.isPrefixOf_iff_prefix]; exact List.prefix_append _ _)]
  rfl

/-- A switch, alone. -/
theorem word_flag {pl : Option Action} {f : Flag} (pend : Option Opt) (g : Given) (h : Spec.Allowed pl f) :
    word pl pend g (str "--" ++ Spec.flagName f) = if pend.isSome then .refused else .of (setFlag f g) := by
  rw [word_long, longWord]
  simp only [splitEq_plain (flagName_eq f), flagOf_name h]
  rw [if_neg (by cases f <;> decide), if_neg (by rintro ⟨h, _⟩; revert h; cases f <;> decide)]
  simp

/-- An option with its value after an equals sign. -/
theorem word_equals (pl : Option Action) (pend : Option Opt) (g : Given) (o : Opt) (v : Str) :
    word pl pend g (str "--" ++ Spec.optName o ++ str "=" ++ v) = if pend.isSome then .refused else .of (setOpt o v g) := by
  rw [show str "--" ++ Spec.optName o ++ str "=" ++ v = str "--" ++ (Spec.optName o ++ '=' :: v) by simp [str], word_long, longWord]
  simp only [splitEq_eq v (optName_eq o), flagOf_opt, optOf_name]
  rw [if_neg (by cases o <;> decide), if_neg (by rintro ⟨h, _⟩; revert h; cases o <;> decide)]

/-- An option with a value, without equals sign. -/
theorem word_opt (pl : Option Action) (pend : Option Opt) (g : Given) (o : Opt) :
    word pl pend g (str "--" ++ Spec.optName o) = if pend.isSome then .refused else match missing o with
      | some d => .of (setOpt o d g)
      | none => .go g (some o) := by
  rw [word_long, longWord]
  simp only [splitEq_plain (optName_eq o), flagOf_opt, optOf_name]
  rw [if_neg (by cases o <;> decide), if_neg (by rintro ⟨h, _⟩; revert h; cases o <;> decide)]
  rfl

theorem missing_none {o : Opt} : missing o = none ↔ ¬ Spec.NeedsEquals o := by cases o <;> simp [missing, Spec.NeedsEquals]

theorem of_ne_value (o : Option Given) : Next.of o ≠ .value := by cases o <;> intro h <;> cases h

theorem shortChars_ne_value (pl : Option Action) (t : Str) (g : Given) : shortChars pl t g ≠ .value := by
  induction t generalizing g with
  | nil => intro h; cases h
  | cons c r ih =>
    intro h
    rw [shortChars] at h
    split at h
    · split at h
      · exact of_ne_value _ h
      · split at h
        · exact ih _ h
        · cases h
    · split at h
      · cases h
      · split at h
        · cases h
        · split at h
          · split at h
            · exact ih _ h
            · cases h
          · cases h

/-- A word is the long form of something, the short form of something, or not dashed. -/
theorem word_cases (w : Str) : (∃ t, w = str "--" ++ t) ∨ (∃ t, t ≠ [] ∧ w = str "-" ++ t ∧ ¬ (str "--").isPrefixOf w) ∨ ¬ Spec.Dashed w := by
  by_cases h1 : (str "--").isPrefixOf w
  · obtain ⟨t, ht⟩ := List.isPrefixOf_iff_prefix.mp h1
    exact .inl ⟨t, ht.symm⟩
  · by_cases h2 : Spec.Dashed w
    · refine .inr (.inl ?_)
      cases w with
      | nil => exact absurd h2.1 (by simp)
      | cons c r =>
        have : c = '-' := by simpa using h2.1
        subst this
        exact ⟨r, fun e => h2.2 (by rw [e]; rfl), rfl, h1⟩
    · exact .inr (.inr h2)

theorem word_plain {w : Str} (h : ¬ Spec.Dashed w) (pl : Option Action) (pend : Option Opt) (g : Given) : word pl pend g w = .value := by
  unfold word
  rw [if_neg, if_neg (show ¬ (w.head? = some '-' ∧ w ≠ str "-") from h)]
  intro hp
  obtain ⟨t, ht⟩ := List.isPrefixOf_iff_prefix.mp hp
  exact h ⟨by rw [← ht]; rfl, by rw [← ht]; exact fun e => by simp [str] at e⟩

theorem word_short {t : Str} (ht : t ≠ []) (hp : ¬ (str "--").isPrefixOf (str "-" ++ t)) (pl : Option Action) (pend : Option Opt) (g : Given) :
    word pl pend g (str "-" ++ t) = shortWord pl pend g t := by
  unfold word
  rw [if_neg hp, if_pos ⟨rfl, fun e => ht (by simpa [str] using e)⟩]
  rfl

theorem any_letters {t : Str} : t.any (fun c => c ≠ 'v' && c ≠ 'h' && c ≠ 'V') = false ↔ ∀ c ∈ t, c ∈ ['v', 'h', 'V'] := by
  rw [List.any_eq_false]
  refine forall_congr' fun c => forall_congr' fun _ => ?_
  by_cases h1 : c = 'v' <;> by_cases h2 : c = 'h' <;> by_cases h3 : c = 'V' <;> simp [h1, h2, h3]

/-- Before an action, a word is a value exactly if it is not an option of the program. -/
theorem value_top {w : Str} (hw : w ≠ str "--") (pend : Option Opt) (g : Given) : word none pend g w = .value ↔ Spec.CanBeValue none w := by
  constructor
  · rintro h (hk | ⟨n, hn, hk⟩ | ⟨t, ht, hk, hc⟩)
    · exact hw hk
    · rcases hn with ⟨f, hf, rfl⟩ | ⟨o, rfl⟩ | rfl | rfl
      · rcases hk with rfl | ⟨v, rfl⟩
        · rw [word_flag pend g hf] at h
          split at h
          · cases h
          · exact of_ne_value _ h
        · rw [show str "--" ++ Spec.flagName f ++ str "=" ++ v = str "--" ++ (Spec.flagName f ++ '=' :: v) by simp [str], word_long, longWord] at h
          simp only [splitEq_eq v (flagName_eq f), flagOf_name hf] at h
          rw [if_neg (by cases f <;> decide), if_neg (by rintro ⟨h, _⟩; revert h; cases f <;> decide)] at h
          simp at h
      · rcases hk with rfl | ⟨v, rfl⟩
        · rw [word_opt] at h
          split at h
          · cases h
          · split at h
            · exact of_ne_value _ h
            · cases h
        · rw [word_equals] at h
          split at h
          · cases h
          · exact of_ne_value _ h
      · have : ∀ t, (splitEq t).1 = str "help" → word none pend g (str "--" ++ t) ≠ .value := by
          intro t ht hv
          rw [word_long, longWord, if_pos ht] at hv
          split at hv <;> cases hv
        rcases hk with rfl | ⟨v, rfl⟩
        · exact this (str "help") rfl h
        · exact this (str "help" ++ '=' :: v) (by rw [splitEq_eq v (by decide)]) (by simpa [str] using h)
      · have : ∀ t, (splitEq t).1 = str "version" → word none pend g (str "--" ++ t) ≠ .value := by
          intro t ht hv
          rw [word_long, longWord, if_neg (by rw [ht]; decide), if_pos ⟨ht, rfl⟩] at hv
          split at hv <;> cases hv
        rcases hk with rfl | ⟨v, rfl⟩
        · exact this (str "version") rfl h
        · exact this (str "version" ++ '=' :: v) (by rw [splitEq_eq v (by decide)]) (by simpa [str] using h)
    · subst hk
      rw [word_short ht, shortWord, if_neg] at h
      · split at h
        · cases h
        · exact shortChars_ne_value _ _ _ h
      · rintro ⟨_, ha⟩
        rw [any_letters.mpr hc] at ha; cases ha
      · intro hp
        obtain ⟨u, hu⟩ := List.isPrefixOf_iff_prefix.mp hp
        cases t with
        | nil => exact ht rfl
        | cons c r =>
          have : c = '-' := by simp [str] at hu; exact hu.1.symm
          have h2 := hc c (by simp)
          rw [this] at h2; exact absurd h2 (by decide)
  · intro hk
    rcases word_cases w with ⟨t, rfl⟩ | ⟨t, ht, rfl, hp⟩ | h
    · rw [word_long, longWord]
      have hb := splitEq_back t
      have key : ∀ n, ((∃ f, Spec.Allowed none f ∧ n = Spec.flagName f) ∨ (∃ o, n = Spec.optName o) ∨ n = str "help" ∨ n = str "version") → (splitEq t).1 ≠ n := by
        intro n hn e
        refine hk (.inr (.inl ⟨n, hn, ?_⟩))
        cases e2 : (splitEq t).2 with
        | none => left; rw [← e, ← hb.2 e2]
        | some v => right; exact ⟨v, by rw [hb.1 v e2, e]; simp [str]⟩
      rw [if_neg (key _ (.inr (.inr (.inl rfl)))), if_neg (fun h => key _ (.inr (.inr (.inr rfl))) h.1)]
      cases e1 : flagOf none (splitEq t).1 with
      | some f => obtain ⟨q1, q2⟩ := flagOf_some e1; exact absurd q1 (key _ (.inl ⟨f, q2, rfl⟩))
      | none =>
        cases e2 : optOf (splitEq t).1 with
        | some o => exact absurd (optOf_some e2) (key _ (.inr (.inl ⟨o, rfl⟩)))
        | none => rfl
    · rw [word_short ht hp, shortWord, if_pos]
      refine ⟨rfl, ?_⟩
      cases ha : t.any (fun c => c ≠ 'v' && c ≠ 'h' && c ≠ 'V') with
      | true => rfl
      | false => exact absurd (.inr (.inr ⟨t, ht, rfl, any_letters.mp ha⟩)) hk
    · exact word_plain h none pend g

/-- After an action, a word is a value exactly if it is not dashed. -/
theorem value_action {w : Str} (a : Action) (pend : Option Opt) (g : Given) : word (some a) pend g w = .value ↔ Spec.CanBeValue (some a) w := by
  constructor
  · intro h
    rcases word_cases w with ⟨t, rfl⟩ | ⟨t, ht, rfl, hp⟩ | h'
    · exfalso
      rw [word_long, longWord] at h
      split at h
      · split at h <;> cases h
      · split at h
        · split at h <;> cases h
        · split at h
          · split at h
            · cases h
            · exact of_ne_value _ h
          · split at h
            · split at h
              · cases h
              · split at h
                · exact of_ne_value _ h
                · split at h
                  · exact of_ne_value _ h
                  · cases h
            · rw [if_neg (by simp)] at h; cases h
    · exfalso
      rw [word_short ht hp, shortWord, if_neg (by simp)] at h
      split at h
      · cases h
      · exact shortChars_ne_value _ _ _ h
    · exact h'
  · exact fun h => word_plain h _ _ _

/-! ### Reading options forward -/

theorem letters_forward {a : Action} {items : List Spec.Item} {t : Str} (h : Spec.Letters a items t) (g g' : Given) (ha : applyItems items g = some g') :
    shortChars (some a) t g = .go g' none := by
  induction h generalizing g with
  | nil => cases ha; rfl
  | v hn _ ih =>
    rw [shortChars, if_pos rfl, if_neg hn]
    change (setOpt .logLevel (str "trace") g).bind (applyItems _) = some g' at ha
    cases hs : setOpt .logLevel (str "trace") g with
    | none => rw [hs] at ha; cases ha
    | some g1 => rw [hs] at ha; exact ih g1 ha
  | y hd _ ih =>
    subst hd
    rw [shortChars, if_neg (by decide), if_neg (by decide), if_neg (by decide), if_pos ⟨rfl, rfl⟩]
    change (setFlag .yes g).bind (applyItems _) = some g' at ha
    cases hs : setFlag .yes g with
    | none => rw [hs] at ha; cases ha
    | some g1 => rw [hs] at ha; exact ih g1 ha
  | level l =>
    rw [shortChars, if_pos rfl, if_pos (by rfl)]
    change (setOpt .logLevel l g).bind (applyItems _) = some g' at ha
    show Next.of (setOpt .logLevel l g) = _
    cases hs : setOpt .logLevel l g with
    | none => rw [hs] at ha; cases ha
    | some g1 => rw [hs] at ha; cases ha; rfl

theorem applyItems_one (i : Spec.Item) (g : Given) : applyItems [i] g = applyItem i g := by
  show (applyItem i g).bind (applyItems []) = _
  cases applyItem i g <;> rfl

theorem equals_ne (o : Opt) (v : Str) : str "--" ++ Spec.optName o ++ str "=" ++ v ≠ str "--" := by
  intro e
  have h := congrArg List.length e
  rw [List.length_append, List.length_append, List.length_append, show (str "--").length = 2 from rfl, show (str "=").length = 1 from rfl] at h
  omega

/-- Options given in one or two words: the word, and the value of an option that takes the next word. -/
theorem spells_word {pl : Option Action} {items : List Spec.Item} {ws : List Str} (h : Spec.Spells pl items ws) (g g' : Given) (ha : applyItems items g = some g') :
    (∃ w, ws = [w] ∧ w ≠ str "--" ∧ w.head? = some '-' ∧ word pl none g w = .go g' none) ∨
    (∃ o v, ws = [str "--" ++ Spec.optName o, v] ∧ Spec.CanBeValue pl v ∧ setOpt o v g = some g' ∧ word pl none g (str "--" ++ Spec.optName o) = .go g (some o)) := by
  cases h with
  | flag f hf =>
    refine .inl ⟨_, rfl, by cases f <;> decide, rfl, ?_⟩
    rw [applyItems_one] at ha
    rw [word_flag none g hf, if_neg (by simp)]
    change setFlag f g = some g' at ha
    rw [ha]; rfl
  | equals o v =>
    refine .inl ⟨_, rfl, equals_ne o v, rfl, ?_⟩
    rw [applyItems_one] at ha
    rw [word_equals, if_neg (by simp)]
    change setOpt o v g = some g' at ha
    rw [ha]; rfl
  | next o v hn hv =>
    rw [applyItems_one] at ha
    refine .inr ⟨o, v, rfl, hv, ha, ?_⟩
    rw [word_opt, if_neg (by simp), missing_none.mpr hn]
  | net =>
    rw [applyItems_one] at ha
    refine .inl ⟨_, rfl, by decide, rfl, ?_⟩
    rw [show str "--net" = str "--" ++ Spec.optName .net by decide, word_opt, if_neg (by simp)]
    change setOpt .net (str "host") g = some g' at ha
    simp only [missing, ha]; rfl
  | level =>
    rw [applyItems_one] at ha
    refine .inl ⟨_, rfl, by decide, rfl, ?_⟩
    rw [show str "--log-level" = str "--" ++ Spec.optName .logLevel by decide, word_opt, if_neg (by simp)]
    change setOpt .logLevel (str "trace") g = some g' at ha
    simp only [missing, ha]; rfl
  | verbose =>
    rw [applyItems_one] at ha
    refine .inl ⟨_, rfl, by decide, rfl, ?_⟩
    change setOpt .logLevel (str "trace") g = some g' at ha
    rw [show str "-v" = str "-" ++ str "v" by decide, word_short (by decide) (by decide), shortWord, if_neg (by decide), if_neg (by simp)]
    show shortChars none ['v'] g = _
    rw [shortChars, if_pos rfl, if_neg (by decide), ha]; rfl
  | letters ht hl =>
    rename_i a t
    have hp : ¬ (str "--").isPrefixOf (str "-" ++ t) := by
      intro hp
      obtain ⟨u, hu⟩ := List.isPrefixOf_iff_prefix.mp hp
      cases hl with
      | nil => exact ht rfl
      | v _ _ => simp [str] at hu
      | y _ _ => simp [str] at hu
      | level _ => simp [str] at hu
    refine .inl ⟨_, rfl, fun e => hp (by rw [e]; decide), rfl, ?_⟩
    rw [word_short ht hp, shortWord, if_neg (by simp), if_neg (by simp)]
    exact letters_forward hl g g' ha

theorem not_help_dash {w : Str} (h : w.head? = some '-') : w ≠ str "help" := by rintro rfl; revert h; decide

theorem top_spells {items : List Spec.Item} {ws : List Str} (h : Spec.Spells none items ws) {g g' : Given} (ha : applyItems items g = some g') (rest : List Str) :
    parseTop g none (ws ++ rest) = parseTop g' none rest := by
  rcases spells_word h g g' ha with ⟨w, rfl, h1, h2, h3⟩ | ⟨o, v, rfl, h1, h2, h3⟩
  · show parseTop g none (w :: rest) = _
    rw [parseTop, if_neg (fun h => not_help_dash h2 h.2)]
    simp only [if_true, actionOf_dash h2, if_neg h1, h3]
  · have hd : (str "--" ++ Spec.optName o).head? = some '-' := rfl
    have hv : v ≠ str "--" := fun e => h1 (.inl e)
    show parseTop g none ((str "--" ++ Spec.optName o) :: v :: rest) = _
    rw [parseTop, if_neg (fun h => not_help_dash hd h.2)]
    simp only [if_true, actionOf_dash hd, if_neg (show str "--" ++ Spec.optName o ≠ str "--" by cases o <;> decide), h3]
    rw [parseTop, if_neg (by simp)]
    simp only [reduceCtorEq, if_false, if_neg hv, (value_top hv (some o) g).mpr h1, h2]

theorem top_options {items : List Spec.Item} {ws : List Str} (h : Spec.Options items ws) {g g' : Given} (ha : applyItems items g = some g') (rest : List Str) :
    parseTop g none (ws ++ rest) = parseTop g' none rest := by
  induction h generalizing g with
  | nil => cases ha; rfl
  | more hs _ ih =>
    rw [applyItems_append] at ha
    rename_i i1 i2 w1 w2 _
    cases h1 : applyItems i1 g with
    | none => rw [h1] at ha; cases ha
    | some g1 =>
      rw [h1] at ha
      rw [List.append_assoc, top_spells hs h1, ih ha]

theorem action_mixed {a : Action} {items : List Spec.Item} {qs ws : List Str} (h : Spec.Mixed a items qs ws) {top g g' : Given} (ps : List Str)
    (ha : applyItems items g = some g') : parseAction top a g none ps ws = finishAction top a g' (ps ++ qs) := by
  induction h generalizing g ps with
  | nil => cases ha; rw [parseAction, if_neg (by simp), List.append_nil]
  | rest qs => cases ha; rw [parseAction, if_pos rfl, if_neg (by simp)]
  | pattern p hp _ ih =>
    have hv : p ≠ str "--" := fun e => hp (by rw [e]; exact ⟨rfl, by decide⟩)
    rw [parseAction, if_neg hv]
    simp only [word_plain hp]
    rw [ih (ps ++ [p]) ha, List.append_assoc]; rfl
  | option hs _ ih =>
    rename_i i1 i2 w1 w2 qs _
    rw [applyItems_append] at ha
    cases h1 : applyItems i1 g with
    | none => rw [h1] at ha; cases ha
    | some g1 =>
      rw [h1] at ha
      rcases spells_word hs g g1 h1 with ⟨w, rfl, q1, q2, q3⟩ | ⟨o, v, rfl, q1, q2, q3⟩
      · show parseAction top a g none ps (w :: w2) = _
        rw [parseAction, if_neg q1]
        simp only [q3]
        exact ih ps ha
      · have hv : v ≠ str "--" := fun e => q1 (by rw [e]; exact ⟨rfl, by decide⟩)
        show parseAction top a g none ps ((str "--" ++ Spec.optName o) :: v :: w2) = _
        rw [parseAction, if_neg (show str "--" ++ Spec.optName o ≠ str "--" by cases o <;> decide)]
        simp only [q3]
        rw [parseAction, if_neg hv]
        simp only [(value_action a (some o) g).mpr q1, q2]
        exact ih ps ha

/-! ### Reading options backward -/

theorem of_go {o : Option Given} {g' : Given} {p : Option Opt} (h : Next.of o = .go g' p) : o = some g' ∧ p = none := by
  cases o with
  | none => cases h
  | some x => cases h; exact ⟨rfl, rfl⟩

theorem shortChars_go {pl : Option Action} {t : Str} {g g' : Given} {p : Option Opt} (h : shortChars pl t g = .go g' p) : p = none := by
  induction t generalizing g with
  | nil => cases h; rfl
  | cons c r ih =>
    rw [shortChars] at h
    split at h
    · split at h
      · exact (of_go h).2
      · split at h
        · exact ih h
        · cases h
    · split at h
      · cases h
      · split at h
        · cases h
        · split at h
          · split at h
            · exact ih h
            · cases h
          · cases h

theorem letters_back {a : Action} {t : Str} {g g' : Given} (h : shortChars (some a) t g = .go g' none) :
    ∃ items, Spec.Letters a items t ∧ applyItems items g = some g' := by
  induction t generalizing g with
  | nil => cases h; exact ⟨[], .nil, rfl⟩
  | cons c r ih =>
    rw [shortChars] at h
    split at h
    · rename_i hc; subst hc
      split at h
      · rename_i hr
        cases r with
        | nil => cases hr
        | cons d l =>
          have : d = '=' := by simpa using hr
          subst this
          exact ⟨_, .level l, by rw [applyItems_one]; exact (of_go h).1⟩
      · rename_i hr
        cases hs : setOpt .logLevel (str "trace") g with
        | none => rw [hs] at h; cases h
        | some g1 =>
          rw [hs] at h
          obtain ⟨items, h1, h2⟩ := ih h
          refine ⟨_, .v hr h1, ?_⟩
          show (setOpt .logLevel (str "trace") g).bind (applyItems items) = _
          rw [hs]; exact h2
    · split at h
      · cases h
      · split at h
        · cases h
        · split at h
          · rename_i hy
            obtain ⟨rfl, hy⟩ := hy
            cases hs : setFlag .yes g with
            | none => rw [hs] at h; cases h
            | some g1 =>
              rw [hs] at h
              obtain ⟨items, h1, h2⟩ := ih h
              refine ⟨_, .y (Option.some.inj hy) h1, ?_⟩
              show (setFlag .yes g).bind (applyItems items) = _
              rw [hs]; exact h2
          · cases h

theorem level_set {v : Str} {g g' : Given} (h : setOpt .logLevel v g = some g') (v' : Str) : setOpt .logLevel v' g' = none := by
  simp only [setOpt] at h ⊢
  split at h
  · cases h
  · cases hp : parseLevel v with
    | none => simp [hp] at h
    | some l => simp [hp] at h; subst h; rfl

theorem verbose_back {t : Str} {g g' : Given} (ht : t ≠ []) (hc : ∀ c ∈ t, c ∈ ['v', 'h', 'V']) (h : shortChars none t g = .go g' none) :
    t = str "v" ∧ setOpt .logLevel (str "trace") g = some g' := by
  cases t with
  | nil => exact absurd rfl ht
  | cons c r =>
    rw [shortChars] at h
    split at h
    · rename_i e; subst e
      split at h
      · rename_i hr
        cases r with
        | nil => cases hr
        | cons d l =>
          have : d = '=' := by simpa using hr
          subst this
          exact absurd (hc '=' (by simp)) (by decide)
      · cases hs : setOpt .logLevel (str "trace") g with
        | none => rw [hs] at h; cases h
        | some g1 =>
          rw [hs] at h
          cases r with
          | nil => cases h; exact ⟨rfl, rfl⟩
          | cons d l =>
            exfalso
            change shortChars none (d :: l) g1 = _ at h
            rw [shortChars] at h
            have hd := hc d (by simp)
            split at h
            · split at h
              · rw [level_set hs] at h; cases h
              · rw [level_set hs] at h; cases h
            · split at h
              · cases h
              · split at h
                · cases h
                · rename_i h1 h2 h3
                  simp at hd h3
                  rcases hd with e | e | e
                  · exact h1 e
                  · exact h2 e
                  · exact h3 e
    · split at h
      · cases h
      · split at h
        · cases h
        · split at h
          · rename_i hy; exact absurd hy.2 (by simp)
          · cases h

/-- A word read as an option is the spelling of one, or the first word of an option with its value in the next word. -/
theorem word_go {pl : Option Action} {g g' : Given} {w : Str} {p : Option Opt} (h : word pl none g w = .go g' p) :
    (p = none ∧ ∃ items, Spec.Spells pl items [w] ∧ applyItems items g = some g') ∨
    (∃ o, p = some o ∧ g' = g ∧ w = str "--" ++ Spec.optName o ∧ ¬ Spec.NeedsEquals o) := by
  rcases word_cases w with ⟨t, rfl⟩ | ⟨t, ht, rfl, hp⟩ | h'
  · rw [word_long, longWord] at h
    have hb := splitEq_back t
    split at h
    · split at h <;> cases h
    · split at h
      · split at h <;> cases h
      · split at h
        · rename_i f hf
          obtain ⟨q1, q2⟩ := flagOf_some hf
          split at h
          · cases h
          · rename_i hv
            have hv : (splitEq t).2 = none := by cases e : (splitEq t).2 <;> simp [e] at hv ⊢
            obtain ⟨h1, rfl⟩ := of_go h
            refine .inl ⟨rfl, [.flag f], ?_, by rw [applyItems_one]; exact h1⟩
            rw [hb.2 hv, q1]; exact .flag f q2
        · split at h
          · rename_i o ho
            have q1 := optOf_some ho
            rw [if_neg (by simp)] at h
            split at h
            · rename_i v hv
              obtain ⟨h1, rfl⟩ := of_go h
              refine .inl ⟨rfl, [.value o v], ?_, by rw [applyItems_one]; exact h1⟩
              rw [hb.1 v hv, q1, show str "--" ++ (Spec.optName o ++ '=' :: v) = str "--" ++ Spec.optName o ++ str "=" ++ v by simp [str]]
              exact .equals o v
            · rename_i hv
              have e : t = Spec.optName o := by rw [← q1]; exact hb.2 hv
              split at h
              · rename_i d hd
                obtain ⟨h1, rfl⟩ := of_go h
                refine .inl ⟨rfl, [.value o d], ?_, by rw [applyItems_one]; exact h1⟩
                rw [e]
                cases o <;> simp only [missing, reduceCtorEq, Option.some.injEq] at hd
                · subst hd; exact .level
                · subst hd; exact .net
              · rename_i hd
                cases h
                exact .inr ⟨o, rfl, rfl, by rw [e], missing_none.mp hd⟩
          · split at h <;> cases h
  · rw [word_short ht hp, shortWord] at h
    split at h
    · cases h
    · rename_i ha
      rw [if_neg (by simp)] at h
      obtain rfl := shortChars_go h
      refine .inl ⟨rfl, ?_⟩
      cases pl with
      | none =>
        have hc : ∀ c ∈ t, c ∈ ['v', 'h', 'V'] := any_letters.mp (by
          cases e : t.any (fun c => c ≠ 'v' && c ≠ 'h' && c ≠ 'V') with
          | false => rfl
          | true => exact absurd ⟨rfl, e⟩ ha)
        obtain ⟨rfl, h1⟩ := verbose_back ht hc h
        exact ⟨_, .verbose, by rw [applyItems_one]; exact h1⟩
      | some a =>
        obtain ⟨items, h1, h2⟩ := letters_back h
        exact ⟨items, .letters ht h1, h2⟩
  · rw [word_plain h'] at h; cases h

/-- While an option waits for its value, no other option is read. -/
theorem word_pend {pl : Option Action} {o : Opt} {g g' : Given} {w : Str} {p : Option Opt} : word pl (some o) g w ≠ .go g' p := by
  intro h
  rcases word_cases w with ⟨t, rfl⟩ | ⟨t, ht, rfl, hp⟩ | h'
  · rw [word_long, longWord] at h
    repeat' split at h
    all_goals first | (cases h; done) | simp_all
  · rw [word_short ht hp, shortWord] at h
    repeat' split at h
    all_goals first | (cases h; done) | simp_all
  · rw [word_plain h'] at h; cases h

theorem top_pend {o : Opt} {g : Given} {ws : List Str} {A : Args} {J : Bool} {W : Todo} (h : parseTop g (some o) ws = .run A J W) :
    ∃ v ws' g', ws = v :: ws' ∧ Spec.CanBeValue none v ∧ setOpt o v g = some g' ∧ parseTop g' none ws' = .run A J W := by
  cases ws with
  | nil => rw [parseTop, if_pos (by simp)] at h; cases h
  | cons v ws =>
    rw [parseTop, if_neg (by simp)] at h
    simp only [reduceCtorEq, if_false] at h
    split at h
    · simp at h
    · rename_i hv
      split at h
      · rename_i hw; exact absurd hw word_pend
      · cases h
      · cases h
      · cases h
      · rename_i hval
        split at h
        · rename_i g2 hs
          exact ⟨v, ws, g2, rfl, (value_top hv _ _).mp hval, hs, h⟩
        · cases h

theorem action_pend {top : Given} {a : Action} {o : Opt} {g : Given} {ps ws : List Str} {A : Args} {J : Bool} {W : Todo}
    (h : parseAction top a g (some o) ps ws = .run A J W) :
    ∃ v ws' g', ws = v :: ws' ∧ Spec.CanBeValue (some a) v ∧ setOpt o v g = some g' ∧ parseAction top a g' none ps ws' = .run A J W := by
  cases ws with
  | nil => rw [parseAction, if_pos (by simp)] at h; cases h
  | cons v ws =>
    rw [parseAction] at h
    split at h
    · simp at h
    · split at h
      · rename_i hw; exact absurd hw word_pend
      · cases h
      · cases h
      · cases h
      · rename_i hval
        split at h
        · rename_i g2 hs
          exact ⟨v, ws, g2, rfl, (value_action _ _ _).mp hval, hs, h⟩
        · cases h

/-- How reading before an action ends. -/
inductive TopEnd (g : Given) : List Str → Parsed → Prop where
  | nil : TopEnd g [] (finishCommand g [])
  | dashes (ws : List Str) : TopEnd g (str "--" :: ws) (finishCommand g ws)
  | command (w : Str) (ws : List Str) : w ≠ str "--" → Spec.CanBeValue none w → w ≠ str "help" → (∀ a, w ≠ Spec.actionName a) → TopEnd g (w :: ws) (finishCommand g (w :: ws))
  | action (a : Action) (ws : List Str) : TopEnd g (Spec.actionName a :: ws) (parseAction g a {} none [] ws)

theorem top_back {ws : List Str} {g : Given} {A : Args} {J : Bool} {W : Todo} (h0 : parseTop g none ws = .run A J W) :
    ∃ items pre rest g', Spec.Options items pre ∧ applyItems items g = some g' ∧ ws = pre ++ rest ∧ TopEnd g' rest (.run A J W) := by
  match ws, h0 with
  | [], h =>
    rw [parseTop, if_neg (by simp)] at h
    exact ⟨[], [], [], g, .nil, rfl, rfl, h ▸ .nil⟩
  | w :: ws, h =>
    rw [parseTop] at h
    split at h
    · cases h
    · rename_i hh
      simp only [if_true] at h
      split at h
      · rename_i a ha
        exact ⟨[], [], w :: ws, g, .nil, rfl, rfl, by rw [← h, actionOf_some ha]; exact .action a ws⟩
      · rename_i ha
        split at h
        · rename_i hd
          rw [if_neg (by simp)] at h
          exact ⟨[], [], w :: ws, g, .nil, rfl, rfl, by rw [← h, hd]; exact .dashes ws⟩
        · rename_i hd
          split at h
          · rename_i g' p hw
            rcases word_go hw with ⟨rfl, items, h1, h2⟩ | ⟨o, rfl, rfl, h1, h2⟩
            · obtain ⟨i2, pre, rest, g2, q1, q2, q3, q4⟩ := top_back h
              refine ⟨items ++ i2, [w] ++ pre, rest, g2, .more h1 q1, ?_, by rw [q3]; rfl, q4⟩
              rw [applyItems_append, h2]; exact q2
            · obtain ⟨v, ws', g2, rfl, hv, hs, hr⟩ := top_pend h
              obtain ⟨i2, pre, rest, g3, q1, q2, q3, q4⟩ := top_back hr
              refine ⟨[.value o v] ++ i2, [w, v] ++ pre, rest, g3, .more (h1 ▸ .next o v h2 hv) q1, ?_, by rw [q3]; rfl, q4⟩
              rw [applyItems_append, applyItems_one]
              show (setOpt o v _).bind _ = _
              rw [hs]; exact q2
          · cases h
          · cases h
          · cases h
          · rename_i hval
            refine ⟨[], [], w :: ws, g, .nil, rfl, rfl, ?_⟩
            rw [← h]
            refine .command w ws hd ((value_top hd _ _).mp hval) (fun e => hh ⟨rfl, e⟩) (fun a e => ?_)
            rw [e, actionOf_name] at ha; cases ha
termination_by ws.length

theorem action_back {ws : List Str} {top : Given} {a : Action} {g : Given} {ps : List Str} {A : Args} {J : Bool} {W : Todo}
    (h0 : parseAction top a g none ps ws = .run A J W) :
    ∃ items qs g', Spec.Mixed a items qs ws ∧ applyItems items g = some g' ∧ finishAction top a g' (ps ++ qs) = .run A J W := by
  match ws, h0 with
  | [], h =>
    rw [parseAction, if_neg (by simp)] at h
    exact ⟨[], [], g, .nil, rfl, by rw [List.append_nil]; exact h⟩
  | w :: ws, h =>
    rw [parseAction] at h
    split at h
    · rename_i hd
      rw [if_neg (by simp)] at h
      exact ⟨[], ws, g, hd ▸ .rest ws, rfl, h⟩
    · split at h
      · rename_i g' p hw
        rcases word_go hw with ⟨rfl, items, h1, h2⟩ | ⟨o, rfl, rfl, h1, h2⟩
        · obtain ⟨i2, qs, g2, q1, q2, q3⟩ := action_back h
          refine ⟨items ++ i2, qs, g2, .option h1 q1, ?_, q3⟩
          rw [applyItems_append, h2]; exact q2
        · obtain ⟨v, ws', g2, rfl, hv, hs, hr⟩ := action_pend h
          obtain ⟨i2, qs, g3, q1, q2, q3⟩ := action_back hr
          refine ⟨[.value o v] ++ i2, qs, g3, Spec.Mixed.option (w1 := [w, v]) (h1 ▸ .next o v h2 hv) q1, ?_, q3⟩
          rw [applyItems_append, applyItems_one]
          show (setOpt o v _).bind _ = _
          rw [hs]; exact q2
      · cases h
      · cases h
      · cases h
      · rename_i hval
        obtain ⟨i2, qs, g2, q1, q2, q3⟩ := action_back h
        refine ⟨i2, w :: qs, g2, .pattern w ((value_action _ _ _).mp hval) q1, q2, ?_⟩
        rw [← q3, List.append_assoc]; rfl
termination_by ws.length

/-! ### The theorems -/

theorem option_ext' {α : Type} {x y : Option α} (h : ∀ v, x = some v ↔ y = some v) : x = y := by
  cases x with
  | none => cases y with
    | none => rfl
    | some v => exact absurd ((h v).mpr rfl) (by simp)
  | some v => exact ((h v).mp rfl).symm

/-- The settings are determined by the options. -/
theorem means_unique {items : List Spec.Item} {a b : Args} {j k : Bool} (ha : Spec.Means items a j) (hb : Spec.Means items b k) : a = b ∧ j = k := by
  refine ⟨?_, Bool.eq_iff_iff.mpr (ha.json.trans hb.json.symm)⟩
  have e1 := option_ext' (fun l => (ha.logLevel l).trans (hb.logLevel l).symm)
  have e2 := option_ext' (fun l => (ha.name l).trans (hb.name l).symm)
  have e3 := option_ext' (fun l => (ha.storageDir l).trans (hb.storageDir l).symm)
  have e4 := option_ext' (fun l => (ha.net l).trans (hb.net l).symm)
  have e5 := ha.bind.trans hb.bind.symm
  have e6 := ha.mask.trans hb.mask.symm
  have e7 := ha.config.trans hb.config.symm
  have e8 := Bool.eq_iff_iff.mpr (ha.new.trans hb.new.symm)
  have e9 := Bool.eq_iff_iff.mpr (ha.last.trans hb.last.symm)
  have e10 := Bool.eq_iff_iff.mpr (ha.noDefaultBinds.trans hb.noDefaultBinds.symm)
  have e11 := Bool.eq_iff_iff.mpr (ha.noConfig.trans hb.noConfig.symm)
  have e12 := Bool.eq_iff_iff.mpr (ha.ignored.trans hb.ignored.symm)
  cases a; cases b
  simp_all

theorem validate_later (n : Nat) (ws : List Str) : validateWords (n + 1) ws = some ws := by
  induction ws generalizing n with
  | nil => rfl
  | cons w r ih => rw [validateWords, if_neg (by simp), ih]; rfl

theorem validate_iff {ws us : List Str} : validateWords 0 ws = some us ↔ us = ws ∧ ∀ w ∈ ws.head?, w.head? ≠ some '-' ∨ w = str "--" := by
  cases ws with
  | nil => simp [validateWords, eq_comm]
  | cons w r =>
    rw [validateWords, validate_later]
    by_cases h : w.head? = some '-' ∧ w ≠ str "--"
    · rw [if_pos ⟨rfl, h⟩]
      constructor
      · intro e; cases e
      · rintro ⟨_, q⟩
        rcases q w rfl with q | q
        · exact absurd h.1 q
        · exact absurd q h.2
    · rw [if_neg (fun q => h q.2)]
      constructor
      · intro e; cases e
        refine ⟨rfl, fun w' hw' => ?_⟩
        cases hw'
        by_cases q : w.head? = some '-'
        · exact .inr (by by_contra q2; exact h ⟨q, q2⟩)
        · exact .inl q
      · rintro ⟨rfl, _⟩; rfl

theorem someWords_eq (ws : List Str) : someWords ws = if ws = [] then none else some ws := rfl

theorem finishCommand_iff {g : Given} {ws : List Str} {A : Args} {J : Bool} {W : Todo} :
    finishCommand g ws = .run A J W ↔ (∀ w ∈ ws.head?, w.head? ≠ some '-' ∨ w = str "--") ∧ conflicts g.args = false ∧ A = g.args ∧ J = g.json ∧ W = .command (if ws = [] then none else some ws) := by
  unfold finishCommand
  cases hv : validateWords 0 ws with
  | none =>
    simp only [reduceCtorEq, false_iff]
    rintro ⟨h, _⟩
    rw [validate_iff.mpr ⟨rfl, h⟩] at hv; cases hv
  | some us =>
    obtain ⟨rfl, h⟩ := validate_iff.mp hv
    simp only
    by_cases hc : conflicts g.args
    · rw [if_pos hc]; simp [hc]
    · rw [if_neg hc]
      have hc' : conflicts g.args = false := by simpa using hc
      rw [someWords_eq]
      constructor
      · intro e; cases e; exact ⟨h, hc', rfl, rfl, rfl⟩
      · rintro ⟨_, _, rfl, rfl, rfl⟩; rfl

theorem canBeValue_plain {w : Str} (h : w.head? ≠ some '-') : Spec.CanBeValue none w := by
  rintro (rfl | ⟨n, _, rfl | ⟨v, rfl⟩⟩ | ⟨t, _, rfl, _⟩) <;> exact h rfl

/-- **C110, running a command**: a command line runs a command exactly if it consists of spelled-out options, sensible and without conflicts, followed by the command: either a word that is neither dashed
nor `help` nor an action, and its arguments, or `--` and any words that do not begin with an option.  The settings are exactly the options given; the words of the command are exactly the words from there
on, whatever they are.  Without words there is no command (then the shell is started). -/
theorem C110_command (words : List Str) (a : Args) (j : Bool) (c : Option (List Str)) :
    parseArgs words = .run a j (.command c) ↔
    ∃ items pre ws, Spec.Options items pre ∧ Spec.Sensible items ∧ Spec.NoConflict items ∧ Spec.Means items a j ∧ c = (if ws = [] then none else some ws) ∧
      ((words = pre ++ ws ∧ ∀ w ∈ ws.head?, Spec.BeginsCommand w) ∨ (words = pre ++ str "--" :: ws ∧ ∀ w ∈ ws.head?, w.head? ≠ some '-' ∨ w = str "--")) := by
  constructor
  · intro h
    obtain ⟨items, pre, rest, g, h1, h2, h3, h4⟩ := top_back h
    obtain ⟨hs, hc⟩ := applied items g h2
    generalize hP : Parsed.run a j (.command c) = P at h4
    cases h4 with
    | nil =>
      obtain ⟨_, q2, rfl, rfl, q5⟩ := finishCommand_iff.mp hP.symm
      exact ⟨items, pre, [], h1, hs, (conflicts_iff hc.means).mp q2, hc.means, by cases q5; rfl, .inl ⟨h3, by simp⟩⟩
    | dashes ws =>
      obtain ⟨q1, q2, rfl, rfl, q5⟩ := finishCommand_iff.mp hP.symm
      exact ⟨items, pre, ws, h1, hs, (conflicts_iff hc.means).mp q2, hc.means, by cases q5; rfl, .inr ⟨h3, q1⟩⟩
    | command w ws d1 d2 d3 d4 =>
      obtain ⟨q1, q2, rfl, rfl, q5⟩ := finishCommand_iff.mp hP.symm
      refine ⟨items, pre, w :: ws, h1, hs, (conflicts_iff hc.means).mp q2, hc.means, by cases q5; rfl, .inl ⟨h3, ?_⟩⟩
      intro w' hw'; cases hw'
      rcases q1 w rfl with q | q
      · exact ⟨q, d3, d4⟩
      · exact absurd q d1
    | action act ws =>
      obtain ⟨_, _, _, _, _, q⟩ := action_back hP.symm
      unfold finishAction at q
      split at q
      · cases q
      · split at q <;> cases q
  · rintro ⟨items, pre, ws, h1, hs, hn, hm, rfl, hw⟩
    obtain ⟨g, hg⟩ := apply_sensible items hs
    have hc := (applied items g hg).2
    obtain ⟨rfl, rfl⟩ := means_unique hm hc.means
    rcases hw with ⟨rfl, hb⟩ | ⟨rfl, hb⟩
    · show parseTop {} none (pre ++ ws) = _
      rw [top_options h1 hg]
      cases ws with
      | nil =>
        rw [parseTop, if_neg (by simp)]
        exact finishCommand_iff.mpr ⟨by simp, (conflicts_iff hc.means).mpr hn, rfl, rfl, rfl⟩
      | cons w r =>
        obtain ⟨b1, b2, b3⟩ := hb w rfl
        have hd : w ≠ str "--" := by rintro rfl; exact b1 rfl
        have ha : actionOf w = none := by
          cases e : actionOf w with
          | none => rfl
          | some act => exact absurd (actionOf_some e) (b3 act)
        rw [parseTop, if_neg (fun h => b2 h.2)]
        simp only [if_true, ha, if_neg hd, (value_top hd none g).mpr (canBeValue_plain b1)]
        exact finishCommand_iff.mpr ⟨fun w' hw' => by cases hw'; exact .inl b1, (conflicts_iff hc.means).mpr hn, rfl, rfl, rfl⟩
    · show parseTop {} none (pre ++ str "--" :: ws) = _
      rw [top_options h1 hg, parseTop, if_neg (by decide)]
      simp only [if_true, show actionOf (str "--") = none from actionOf_dash rfl]
      rw [if_neg (by simp)]
      exact finishCommand_iff.mpr ⟨hb, (conflicts_iff hc.means).mpr hn, rfl, rfl, rfl⟩

/-- What an action gets: each setting from the options after the action if given there, else from those before it. -/
structure Spec.Later (a1 a2 a : Args) : Prop where
  logLevel : a.logLevel = a2.logLevel.or a1.logLevel
  name : a.name = a2.name.or a1.name
  storageDir : a.storageDir = a2.storageDir.or a1.storageDir
  net : a.net = a2.net.or a1.net
  bind : a.bind = a2.bind.or a1.bind
  mask : a.mask = a2.mask.or a1.mask
  config : a.config = a2.config.or a1.config
  new : a.new = (a1.new || a2.new)
  last : a.last = (a1.last || a2.last)
  noDefaultBinds : a.noDefaultBinds = (a1.noDefaultBinds || a2.noDefaultBinds)
  noConfig : a.noConfig = (a1.noConfig || a2.noConfig)
  ignored : a.ignored = (a1.ignored || a2.ignored)

theorem later_merge (a1 a2 a : Args) : Spec.Later a1 a2 a ↔ a = mergeArgs a1 a2 := by
  constructor
  · rintro ⟨e1, e2, e3, e4, e5, e6, e7, e8, e9, e10, e11, e12⟩
    cases a; simp_all [mergeArgs]
  · rintro rfl
    constructor <;> rfl

/-- **C110, actions**: a command line runs an action exactly if it consists of options, the action, and options and patterns in any order, the options on each side sensible and without conflicts; the
patterns are exactly the words that are not options (or their values), in their order.  Each setting is the one after the action if given there, else the one before it.  `--all` excludes patterns, and
`sync` takes none. -/
theorem C110_action (words : List Str) (a : Args) (j : Bool) (act : Action) (ps : Option (List Str)) (all yes : Bool) :
    parseArgs words = .run a j (.action act ps all yes) ↔
    ∃ i1 i2 pre post qs a1 a2 j1 j2, Spec.Options i1 pre ∧ Spec.Mixed act i2 qs post ∧ words = pre ++ Spec.actionName act :: post ∧
      Spec.Sensible i1 ∧ Spec.Sensible i2 ∧ Spec.NoConflict i1 ∧ Spec.NoConflict i2 ∧ Spec.Means i1 a1 j1 ∧ Spec.Means i2 a2 j2 ∧ Spec.Later a1 a2 a ∧ j = (j1 || j2) ∧
      ps = (if qs = [] then none else some qs) ∧ (all = true ↔ .flag .all ∈ i2) ∧ (yes = true ↔ .flag .yes ∈ i2) ∧ (all = true → qs = []) ∧ (act = .sync → qs = []) := by
  constructor
  · intro h
    obtain ⟨i1, pre, rest, g, h1, h2, h3, h4⟩ := top_back h
    obtain ⟨hs, hc⟩ := applied i1 g h2
    generalize hP : Parsed.run a j (.action act ps all yes) = P at h4
    cases h4 with
    | nil => obtain ⟨_, _, _, _, q⟩ := finishCommand_iff.mp hP.symm; cases q
    | dashes ws => obtain ⟨_, _, _, _, q⟩ := finishCommand_iff.mp hP.symm; cases q
    | command w ws => obtain ⟨_, _, _, _, q⟩ := finishCommand_iff.mp hP.symm; cases q
    | action act' post =>
      obtain ⟨i2, qs, g2, m1, m2, m3⟩ := action_back hP.symm
      obtain ⟨hs2, hc2⟩ := applied i2 g2 m2
      rw [List.nil_append] at m3
      unfold finishAction at m3
      split at m3
      · cases m3
      · rename_i n1
        split at m3
        · cases m3
        · rename_i n2
          cases m3
          simp only [Bool.or_eq_true, Bool.and_eq_true, not_or, decide_eq_true_eq] at n2
          refine ⟨i1, i2, pre, post, qs, _, _, _, _, h1, m1, h3, hs, hs2, (conflicts_iff hc.means).mp (by simpa using n2.2), (conflicts_iff hc2.means).mp (by simpa using n2.1.2),
            hc.means, hc2.means, (later_merge _ _ _).mpr rfl, rfl, rfl, hc2.all, hc2.yes, fun ha => ?_, fun hy => ?_⟩
          · by_contra hq; exact n2.1.1 ⟨ha, hq⟩
          · by_contra hq; exact n1 ⟨hy, hq⟩
  · rintro ⟨i1, i2, pre, post, qs, a1, a2, j1, j2, h1, h2, rfl, s1, s2, n1, n2, m1, m2, hl, rfl, rfl, hall, hyes, x1, x2⟩
    obtain ⟨g1, hg1⟩ := apply_sensible i1 s1
    obtain ⟨g2, hg2⟩ := apply_sensible i2 s2
    have c1 := (applied i1 g1 hg1).2
    have c2 := (applied i2 g2 hg2).2
    obtain ⟨rfl, rfl⟩ := means_unique m1 c1.means
    obtain ⟨rfl, rfl⟩ := means_unique m2 c2.means
    obtain rfl := (later_merge _ _ _).mp hl
    have ea : all = g2.all := Bool.eq_iff_iff.mpr (hall.trans c2.all.symm)
    have ey : yes = g2.yes := Bool.eq_iff_iff.mpr (hyes.trans c2.yes.symm)
    subst ea; subst ey
    show parseTop {} none (pre ++ Spec.actionName act :: post) = _
    rw [top_options h1 hg1, parseTop, if_neg (by rintro ⟨_, h⟩; revert h; cases act <;> decide)]
    simp only [if_true, actionOf_name]
    rw [action_mixed h2 [] hg2, List.nil_append, finishAction, if_neg (by rintro ⟨h, q⟩; exact q (x2 h)), if_neg]
    · rfl
    · rw [(conflicts_iff m1).mpr n1, (conflicts_iff m2).mpr n2]
      simp only [Bool.or_false, Bool.and_eq_true, decide_eq_true_eq]
      rintro ⟨h, q⟩; exact q (x1 h)

/-- **C110, arguments of a command**: options are never taken from the arguments of a command: with other arguments the same program runs with the same settings. -/
theorem C110_arguments (words : List Str) (a : Args) (j : Bool) (c : List Str) (h : parseArgs words = .run a j (.command (some c))) :
    ∃ pre w r, words = pre ++ w :: r ∧ c = w :: r ∧ ∀ r', parseArgs (pre ++ w :: r') = .run a j (.command (some (w :: r'))) := by
  obtain ⟨items, pre, ws, h1, h2, h3, h4, h5, h6⟩ := (C110_command _ _ _ _).mp h
  cases ws with
  | nil => cases h5
  | cons w r =>
    cases h5
    rcases h6 with ⟨rfl, h6⟩ | ⟨rfl, h6⟩
    · exact ⟨pre, w, r, rfl, rfl, fun r' => (C110_command _ _ _ _).mpr ⟨items, pre, w :: r', h1, h2, h3, h4, rfl, .inl ⟨rfl, fun w' hw' => h6 w' hw'⟩⟩⟩
    · refine ⟨pre ++ [str "--"], w, r, by simp, rfl, fun r' => ?_⟩
      rw [List.append_assoc]
      exact (C110_command _ _ _ _).mpr ⟨items, pre, w :: r', h1, h2, h3, h4, rfl, .inr ⟨rfl, fun w' hw' => h6 w' hw'⟩⟩

theorem sensible_left {i1 i2 : List Spec.Item} (h : Spec.Sensible (i1 ++ i2)) : Spec.Sensible i1 := by
  refine ⟨fun v hv => h.level v (List.mem_append_left _ hv), fun v hv => h.net v (List.mem_append_left _ hv), fun k hk => ?_⟩
  have := h.once k hk
  rw [List.map_append, List.count_append] at this
  omega

theorem sensible_right {i1 i2 : List Spec.Item} (h : Spec.Sensible (i1 ++ i2)) : Spec.Sensible i2 := by
  refine ⟨fun v hv => h.level v (List.mem_append_right _ hv), fun v hv => h.net v (List.mem_append_right _ hv), fun k hk => ?_⟩
  have := h.once k hk
  rw [List.map_append, List.count_append] at this
  omega

theorem sensible_apart {i1 i2 : List Spec.Item} (h : Spec.Sensible (i1 ++ i2)) {k : Spec.Key} (hk : ¬ Spec.Repeated k) (h1 : k ∈ i1.map Spec.Item.about) : k ∉ i2.map Spec.Item.about := by
  intro h2
  have := h.once k hk
  rw [List.map_append, List.count_append] at this
  have q1 := List.count_pos_iff.mpr h1
  have q2 := List.count_pos_iff.mpr h2
  omega

theorem noConflict_of {i1 i2 : List Spec.Item} (h : ∀ k, k ∈ i1.map Spec.Item.about → k ∈ i2.map Spec.Item.about) (hn : Spec.NoConflict i2) : Spec.NoConflict i1 :=
  ⟨fun q => hn.nameNew ⟨h _ q.1, h _ q.2⟩, fun q => hn.nameLast ⟨h _ q.1, h _ q.2⟩, fun q => hn.newLast ⟨h _ q.1, h _ q.2⟩, fun q => hn.config ⟨h _ q.1, h _ q.2⟩⟩

theorem or_iff_some {α : Type} {x y : Option α} (h : ∀ u v, x = some u → y = some v → False) (l : α) : (y.or x) = some l ↔ x = some l ∨ y = some l := by
  cases y with
  | none => simp
  | some v => cases x with
    | none => simp
    | some u => exact absurd rfl (fun e => h u v e rfl)

theorem pieces_append {o : Opt} {i1 i2 : List Spec.Item} (h : Spec.Key.opt o ∈ i1.map Spec.Item.about → Spec.Key.opt o ∉ i2.map Spec.Item.about) :
    Spec.pieces o (i1 ++ i2) = (Spec.pieces o i2).or (Spec.pieces o i1) := by
  have e : ∀ i : List Spec.Item, Spec.Key.opt o ∉ i.map Spec.Item.about →
      i.flatMap (Spec.pieceOf o) = [] := by
    intro i hi
    rw [List.flatMap_eq_nil_iff]
    intro x hx
    cases x with
    | flag f => rfl
    | value o2 v2 =>
      by_cases e2 : o2 = o
      · subst e2; exact absurd (List.mem_map.mpr ⟨_, hx, rfl⟩) hi
      · simp [Spec.pieceOf, e2]
  unfold Spec.pieces
  rw [List.map_append, List.flatMap_append]
  by_cases h1 : Spec.Key.opt o ∈ i1.map Spec.Item.about
  · rw [if_pos (List.mem_append_left _ h1), if_neg (h h1), if_pos h1, e i2 (h h1), List.append_nil]; rfl
  · by_cases h2 : Spec.Key.opt o ∈ i2.map Spec.Item.about
    · rw [if_pos (List.mem_append_right _ h2), if_pos h2, e i1 h1]; rfl
    · rw [if_neg (by rw [List.mem_append]; rintro (q | q); exacts [h1 q, h2 q]), if_neg h2, if_neg h1]; rfl

/-- **C110, options before and after an action** (partial: no list option on both sides): it makes no difference on which side of the action an option stands. -/
theorem C110_position_partial (act : Action) (i1 i2 : List Spec.Item) (pre post qs : List Str) (h1 : Spec.Options i1 pre) (h2 : Spec.Mixed act i2 qs post)
    (hs : Spec.Sensible (i1 ++ i2)) (hn : Spec.NoConflict (i1 ++ i2)) (hr : ∀ o, Spec.Repeated (.opt o) → .opt o ∈ i1.map Spec.Item.about → .opt o ∉ i2.map Spec.Item.about)
    (ha : .flag .all ∈ i2 → qs = []) (hy : act = .sync → qs = []) :
    ∃ a j all yes, parseArgs (pre ++ Spec.actionName act :: post) = .run a j (.action act (if qs = [] then none else some qs) all yes) ∧ Spec.Means (i1 ++ i2) a j ∧
      (all = true ↔ .flag .all ∈ i2) ∧ (yes = true ↔ .flag .yes ∈ i2) := by
  have s1 := sensible_left hs
  have s2 := sensible_right hs
  obtain ⟨g1, hg1⟩ := apply_sensible i1 s1
  obtain ⟨g2, hg2⟩ := apply_sensible i2 s2
  have c1 := (applied i1 g1 hg1).2
  have c2 := (applied i2 g2 hg2).2
  refine ⟨mergeArgs g1.args g2.args, g1.json || g2.json, g2.all, g2.yes, (C110_action _ _ _ _ _ _ _).mpr
    ⟨i1, i2, pre, post, qs, _, _, _, _, h1, h2, rfl, s1, s2, noConflict_of (fun k hk => by rw [List.map_append]; exact List.mem_append_left _ hk) hn,
      noConflict_of (fun k hk => by rw [List.map_append]; exact List.mem_append_right _ hk) hn, c1.means, c2.means, (later_merge _ _ _).mpr rfl, rfl, rfl, c2.all, c2.yes,
      fun h => ha (c2.all.mp h), hy⟩, ?_, c2.all, c2.yes⟩
  have ap : ∀ o, Spec.Key.opt o ∈ i1.map Spec.Item.about → Spec.Key.opt o ∉ i2.map Spec.Item.about := by
    intro o
    by_cases h : Spec.Repeated (.opt o)
    · exact hr o h
    · exact fun q => sensible_apart hs h q
  have m1 := c1.means
  have m2 := c2.means
  constructor
  · intro l
    show (g2.args.logLevel.or g1.args.logLevel) = some l ↔ _
    rw [or_iff_some, m1.logLevel, m2.logLevel]
    · simp only [List.mem_append]
      constructor
      · rintro (⟨v, q1, q2⟩ | ⟨v, q1, q2⟩)
        · exact ⟨v, .inl q1, q2⟩
        · exact ⟨v, .inr q1, q2⟩
      · rintro ⟨v, q1 | q1, q2⟩
        · exact .inl ⟨v, q1, q2⟩
        · exact .inr ⟨v, q1, q2⟩
    · intro u v q1 q2
      obtain ⟨x, hx, _⟩ := (m1.logLevel u).mp q1
      obtain ⟨y, hy', _⟩ := (m2.logLevel v).mp q2
      exact ap _ (mem_about_opt.mpr ⟨x, hx⟩) (mem_about_opt.mpr ⟨y, hy'⟩)
  · intro l
    show (g2.args.name.or g1.args.name) = some l ↔ _
    rw [or_iff_some, m1.name, m2.name, List.mem_append]
    intro u v q1 q2
    exact ap _ (mem_about_opt.mpr ⟨u, (m1.name u).mp q1⟩) (mem_about_opt.mpr ⟨v, (m2.name v).mp q2⟩)
  · intro l
    show (g2.args.storageDir.or g1.args.storageDir) = some l ↔ _
    rw [or_iff_some, m1.storageDir, m2.storageDir, List.mem_append]
    intro u v q1 q2
    exact ap _ (mem_about_opt.mpr ⟨u, (m1.storageDir u).mp q1⟩) (mem_about_opt.mpr ⟨v, (m2.storageDir v).mp q2⟩)
  · intro l
    show (g2.args.net.or g1.args.net) = some l ↔ _
    rw [or_iff_some, m1.net, m2.net]
    · simp only [List.mem_append]
      constructor
      · rintro (⟨v, q1, q2⟩ | ⟨v, q1, q2⟩)
        · exact ⟨v, .inl q1, q2⟩
        · exact ⟨v, .inr q1, q2⟩
      · rintro ⟨v, q1 | q1, q2⟩
        · exact .inl ⟨v, q1, q2⟩
        · exact .inr ⟨v, q1, q2⟩
    · intro u v q1 q2
      obtain ⟨x, hx, _⟩ := (m1.net u).mp q1
      obtain ⟨y, hy', _⟩ := (m2.net v).mp q2
      exact ap _ (mem_about_opt.mpr ⟨x, hx⟩) (mem_about_opt.mpr ⟨y, hy'⟩)
  · show g2.args.bind.or g1.args.bind = _
    rw [pieces_append (ap _), m1.bind, m2.bind]
  · show g2.args.mask.or g1.args.mask = _
    rw [pieces_append (ap _), m1.mask, m2.mask]
  · show g2.args.config.or g1.args.config = _
    rw [pieces_append (ap _), m1.config, m2.config]
  · show (g1.args.new || g2.args.new) = true ↔ _
    rw [Bool.or_eq_true, m1.new, m2.new, List.mem_append]
  · show (g1.args.last || g2.args.last) = true ↔ _
    rw [Bool.or_eq_true, m1.last, m2.last, List.mem_append]
  · show (g1.args.noDefaultBinds || g2.args.noDefaultBinds) = true ↔ _
    rw [Bool.or_eq_true, m1.noDefaultBinds, m2.noDefaultBinds, List.mem_append]
  · show (g1.args.noConfig || g2.args.noConfig) = true ↔ _
    rw [Bool.or_eq_true, m1.noConfig, m2.noConfig, List.mem_append]
  · show (g1.args.ignored || g2.args.ignored) = true ↔ _
    rw [Bool.or_eq_true, m1.ignored, m2.ignored, List.mem_append]
  · show (g1.json || g2.json) = true ↔ _
    rw [Bool.or_eq_true, m1.json, m2.json, List.mem_append]

/-! ### Where the parts of a list begin -/

theorem splitComma_ne (s : Str) : splitComma s ≠ [] := by
  cases s with
  | nil => simp [splitComma]
  | cons c r =>
    rw [splitComma]
    split
    · simp
    · split <;> simp

/-- **C110, lists**: the value of `--bind`, `--mask`, `--config` is cut at its commas: the pieces contain none, and joined by commas they are the value. -/
theorem C110_list (s : Str) : splitComma s ≠ [] ∧ (∀ x ∈ splitComma s, ',' ∉ x) ∧ List.intercalate [','] (splitComma s) = s := by
  refine ⟨splitComma_ne s, ?_⟩
  induction s with
  | nil => simp [splitComma, List.intercalate]
  | cons c r ih =>
    rw [splitComma]
    by_cases e : c = ','
    · subst e
      rw [if_pos rfl]
      refine ⟨?_, ?_⟩
      · intro x hx
        rcases List.mem_cons.mp hx with rfl | hx
        · simp
        · exact ih.1 x hx
      · have := splitComma_ne r
        cases hr : splitComma r with
        | nil => exact absurd hr this
        | cons y l => rw [hr] at ih; rw [← ih.2]; simp [List.intercalate]
    · rw [if_neg e]
      cases hr : splitComma r with
      | nil => exact absurd hr (splitComma_ne r)
      | cons y l =>
        rw [hr] at ih
        refine ⟨?_, ?_⟩
        · intro x hx
          rcases List.mem_cons.mp hx with rfl | hx
          · have := ih.1 y (by simp)
            simp only [List.mem_cons, not_or]
            exact ⟨fun q => e q.symm, this⟩
          · exact ih.1 x (List.mem_cons_of_mem _ hx)
        · rw [← ih.2]
          cases l <;> simp [List.intercalate]

/-! ### Where it does not hold -/

/-- **C110 refuted**, `--name`, `--new` and `--last` exclude each other only on the same side of the action: `sandbox --name=o delete --last -y` is accepted and means the last sandbox, `n1`, not `o`
(README.adoc:161: "Cannot be used with --name or --new"). -/
theorem C110_refuted_conflict :
    let words := [str "--name=o", str "--no-config", str "--storage-dir=/home/u/data", str "delete", str "--last", str "-y"]
    let a : Args := { name := some (str "o"), last := true, noConfig := true, storageDir := some (str "/home/u/data") }
    parseArgs words = .run a false (.action .delete none false true) ∧ ((resolveConfig exNewWorld a).toOption.map (·.name)) = some (str "n1") := by decide +kernel

/-- **C110 refuted**, list options on both sides of an action: those before it are dropped, here a mask. -/
theorem C110_refuted_list :
    parseArgs [str "--mask=/a", str "config", str "--mask=/b"] = .run { mask := some [str "/b"] } false (.action .config none false false) ∧
    parseArgs [str "--mask=/a", str "--mask=/b", str "config"] = .run { mask := some [str "/a", str "/b"] } false (.action .config none false false) := by decide +kernel

/-- **C110 refuted**, the same option on both sides of an action is not refused as it is on one side; the second one counts. -/
theorem C110_refuted_twice :
    parseArgs [str "--name=a", str "stop", str "--name=b"] = .run { name := some (str "b") } false (.action .stop none false false) ∧
    parseArgs [str "--name=a", str "--name=b", str "stop"] = .refused := by decide +kernel

/-- **C110 refuted**, `--net none`: the value must follow an equals sign; without it the network of the host is switched on, and `none` is taken for the command. -/
theorem C110_refuted_net :
    parseArgs [str "--net", str "none", str "ls"] = .run { net := some .host } false (.command (some [str "none", str "ls"])) ∧
    parseArgs [str "--net=none", str "ls"] = .run { net := some .none } false (.command (some [str "ls"])) := by decide +kernel

/-- **C110 refuted**, commands: a command whose name begins with a dash cannot be run, not even after `--`. -/
theorem C110_refuted_dash (r : List Str) : parseArgs (str "--" :: str "-x" :: r) = .refused := by
  show parseTop {} none (str "--" :: str "-x" :: r) = _
  rw [parseTop, if_neg (by decide)]
  simp only [if_true, show actionOf (str "--") = none from actionOf_dash rfl]
  rw [if_neg (by simp), finishCommand, validateWords, if_pos (by decide)]

/-! ### Non-vacuity -/

/-- `sandbox -v --bind /a,/b:/c --net=none --bind=d make delete --name x`: a command with an argument that is also an action and one that is also an option. -/
def exCliWords : List Str := [str "-v", str "--bind", str "/a,/b:/c", str "--net=none", str "--bind=d", str "make", str "delete", str "--name", str "x"]

def exCliItems : List Spec.Item := [.value .logLevel (str "trace"), .value .bind (str "/a,/b:/c"), .value .net (str "none"), .value .bind (str "d")]

example : parseArgs exCliWords = .run { logLevel := some .trace, bind := some [str "/a", str "/b:/c", str "d"], net := some .none } false
    (.command (some [str "make", str "delete", str "--name", str "x"])) := by decide +kernel

theorem exCli_value : Spec.CanBeValue none (str "/a,/b:/c") := canBeValue_plain (by decide)

example : Spec.Options exCliItems [str "-v", str "--bind", str "/a,/b:/c", str "--net=none", str "--bind=d"] :=
  .more .verbose (.more (.next .bind _ (fun h => h) exCli_value) (.more (.equals .net (str "none")) (.more (.equals .bind (str "d")) .nil)))

example : Spec.Sensible exCliItems := (applied exCliItems { args := { logLevel := some .trace, bind := some [str "/a", str "/b:/c", str "d"], net := some .none } } (by decide +kernel)).1

example : Spec.NoConflict exCliItems := by constructor <;> decide

/-- `sandbox --storage-dir=/s stop web* --json -v -- -odd`: options on both sides of the action, patterns between and after them. -/
def exCliPost : List Str := [str "web*", str "--json", str "-v", str "--", str "-odd"]

example : parseArgs (str "--storage-dir=/s" :: str "stop" :: exCliPost) =
    .run { storageDir := some (str "/s"), logLevel := some .trace } true (.action .stop (some [str "web*", str "-odd"]) false false) := by decide +kernel

theorem exCli_mixed : Spec.Mixed .stop [.flag .json, .value .logLevel (str "trace")] [str "web*", str "-odd"] exCliPost :=
  .pattern _ (fun h => absurd h.1 (by decide)) (.option (.flag .json trivial) (.option (.letters (t := str "v") (by decide) (.v (by decide) .nil)) (.rest [str "-odd"])))

example : ∃ a j all yes, parseArgs ([str "--storage-dir=/s"] ++ Spec.actionName .stop :: exCliPost) = .run a j (.action .stop (some [str "web*", str "-odd"]) all yes) ∧
    Spec.Means ([.value .storageDir (str "/s")] ++ [.flag .json, .value .logLevel (str "trace")]) a j ∧
    (all = true ↔ .flag .all ∈ [Spec.Item.flag .json, .value .logLevel (str "trace")]) ∧ (yes = true ↔ .flag .yes ∈ [Spec.Item.flag .json, .value .logLevel (str "trace")]) :=
  C110_position_partial .stop [.value .storageDir (str "/s")] [.flag .json, .value .logLevel (str "trace")] [str "--storage-dir=/s"] exCliPost _
    (.more (.equals .storageDir (str "/s")) .nil) exCli_mixed
    (applied ([.value .storageDir (str "/s")] ++ [.flag .json, .value .logLevel (str "trace")]) { args := { storageDir := some (str "/s"), logLevel := some .trace }, json := true } (by decide +kernel)).1
    (by constructor <;> decide) (by intro o ho h1 h2; cases o <;> first | exact ho | exact absurd h1 (by decide)) (by decide) (by decide)

end SB
