import Verif.Model.Output
import Verif.Props.AcceptChecks
import Verif.Lib.Digits
import Verif.Lib.TextLemmas

/-! # C63: what status prints tells exactly what the changes are -/

namespace SB

/-- What a line of the listing says. -/
inductive Spec.ShownAs where
  | created (p : Path)
  | modified (p : Path)
  | removed (p : Path)
  | renamed (old new : Path)
  | failed (p : Path) (why : ChangeError)
deriving DecidableEq, Repr

/-- What a change is, in these words. -/
def Spec.meaning (e : Entry) : Spec.ShownAs :=
  match e.op with
  | .set .create => .created e.dest
  | .set .modify => .modified e.dest
  | .remove => .removed e.dest
  | .rename => .renamed ((e.source.map (·.path)).getD e.dest) e.dest
  | .error x => .failed e.dest x

/-- The place a path denotes when it is used in the current directory. -/
def Spec.placeIn (cwd : Path) (t : Str) : Path := if t.head? = some '/' then components t else cwd ++ components t

/-- How a person reads a line: a symbol and a path, or two paths with an arrow between them. -/
inductive Spec.Says (cwd : Path) : Str → Spec.ShownAs → Prop where
  | created (t) : Spec.Says cwd (str "   + " ++ t) (.created (Spec.placeIn cwd t))
  | modified (t) : Spec.Says cwd (str "   ~ " ++ t) (.modified (Spec.placeIn cwd t))
  | removed (t) : Spec.Says cwd (str "   - " ++ t) (.removed (Spec.placeIn cwd t))
  | renamed (t u) : Spec.Says cwd (str "   > " ++ t ++ str " -> " ++ u) (.renamed (Spec.placeIn cwd t) (Spec.placeIn cwd u))
  | unsupported (t) : Spec.Says cwd (str "   ! " ++ t ++ str " (error: Unsupported file type. Only files, directories, and symlinks are supported.)")
      (.failed (Spec.placeIn cwd t) .unsupportedFileType)
  | noRedirect (t) : Spec.Says cwd (str "   ! " ++ t ++ str " (error: Redirect path not found. Was the underlying path moved or deleted?)")
      (.failed (Spec.placeIn cwd t) .redirectPathNotFound)

/-- All paths of the listed changes consist of proper names. -/
def Spec.ProperPaths (l : List Entry) : Prop := ∀ e ∈ l, NormalPath e.dest ∧ ∀ s, e.source = some s → NormalPath s.path

theorem relText_flat : ∀ {r : Path}, r ≠ [] → '/' :: relText r = r.flatMap (fun n => '/' :: n)
  | [], h => absurd rfl h
  | [n], _ => by simp [relText]
  | n :: m :: r, _ => by
    have := relText_flat (r := m :: r) (by simp)
    simp only [relText, List.flatMap_cons, List.cons_append] at this ⊢
    rw [this]

theorem relText_head {r : Path} (hr : NormalPath r) : (relText r).head? ≠ some '/' := by
  cases r with
  | nil => simp [relText]
  | cons n r =>
    have hn := hr n (by simp)
    cases n with
    | nil => exact absurd rfl hn.1
    | cons c n =>
      have hc : c ≠ '/' := fun h => hn.2.1 (by simp [h])
      cases r with
      | nil => simp [relText, hc]
      | cons m r => simp [relText, hc]

theorem components_relText {r : Path} (hr : NormalPath r) : components (relText r) = r := by
  cases h : r with
  | nil => decide
  | cons n r' =>
    rw [← h]
    have hne : r ≠ [] := by rw [h]; simp
    have h1 := split_flatMap (p := r) (fun n hn => (hr n hn).2.1)
    rw [← relText_flat hne] at h1
    simp only [splitSlash, if_true, List.cons.injEq, true_and] at h1
    unfold components
    rw [h1]
    exact filter_normal hr

theorem display_head (p : Path) : (display p).head? = some '/' := by
  unfold display
  cases p with
  | nil => rfl
  | cons n r => simp

/-- The text shown for a path denotes it. -/
theorem place_shown {cwd p : Path} (hp : NormalPath p) : Spec.placeIn cwd (shownPath cwd p) = p := by
  unfold shownPath
  split
  · next h =>
    obtain ⟨r, rfl⟩ := List.isPrefixOf_iff_prefix.1 h
    have hr := NormalPath.of_append_right hp
    rw [List.drop_left]
    unfold Spec.placeIn
    rw [if_neg (relText_head hr), components_relText hr]
  · unfold Spec.placeIn
    rw [if_pos (display_head p), components_display hp]

theorem place_display {cwd p : Path} (hp : NormalPath p) : Spec.placeIn cwd (display p) = p := by
  unfold Spec.placeIn
  rw [if_pos (display_head p), components_display hp]

/-- In a detected change, the source of a removal is the removed path. -/
theorem remove_src_eq {env : Env} {st : State} {e : Entry} (he : e ∈ changes env st) (ho : e.op = .remove) {s : Details} (hs : e.source = some s) : s.path = e.dest := by
  obtain ⟨ue, _, h | h⟩ := mem_changes.1 he
  · obtain ⟨sp, hsp, _, _, _, hc, _⟩ := mem_removesOf h
    rcases hc with ⟨_, _, h2, _⟩ | ⟨_, h1, h2, _⟩
    · rw [hs] at h2
      unfold details at h2
      split at h2
      · cases h2; rfl
      · cases h2
    · rw [hs] at h2
      have hu : ue ∈ upperEntries env st := by assumption
      unfold upperEntries at hu
      obtain ⟨k, _, hk⟩ := List.mem_filterMap.1 hu
      unfold mkUpperEntry at hk
      obtain ⟨m, mp, sub⟩ := k
      simp only at hk
      split at hk
      · cases hk
      · cases hk
        simp only at h2 hsp
        rw [hsp] at h2
        simp only [Option.bind_some] at h2
        unfold details at h2
        split at h2
        · cases h2; exact h1.symm
        · cases h2
  · obtain ⟨_, _, _, _, _, hc⟩ := mem_setsOf h
    rw [ho] at hc
    rcases hc with ⟨_, _, h⟩ | ⟨_, _, h⟩ | ⟨_, _, h⟩ | ⟨_, _, h⟩ <;> cases h

theorem rename_src_eq {env : Env} {st : State} {e : Entry} (he : e ∈ changes env st) (ho : e.op = .rename) : ∃ s, e.source = some s := by
  obtain ⟨ue, _, h | h⟩ := mem_changes.1 he
  · obtain ⟨sp, hsp, _, _, h1, _⟩ := mem_removesOf h
    rw [ho] at h1; cases h1
  · obtain ⟨_, _, _, h2, _, hc⟩ := mem_setsOf h
    rw [ho] at hc
    rcases hc with ⟨_, _, h⟩ | ⟨_, h, _⟩ | ⟨_, _, h⟩ | ⟨_, _, h⟩
    · cases h
    · rw [h2]; exact Option.isSome_iff_exists.1 h
    · cases h
    · cases h

theorem mem_statusList {env : Env} {st : State} {e : Entry} (he : e ∈ (status env st).1) : e ∈ changes env st ∧ Spec.Listed e := by
  have h := (C16_status_complete env st).mem_iff.1 he
  rw [List.mem_filter] at h
  exact ⟨mem_selected h.1, by simpa using h.2⟩

theorem errorTail_unsupported : str " (error: " ++ (errorText .unsupportedFileType ++ str ")") =
    str " (error: Unsupported file type. Only files, directories, and symlinks are supported.)" := by decide +kernel

theorem errorTail_redirect : str " (error: " ++ (errorText .redirectPathNotFound ++ str ")") =
    str " (error: Redirect path not found. Was the underlying path moved or deleted?)" := by decide +kernel

/-- **C63**: every line of the listing says, in terms of paths as they can be used in the current directory, what the change is. -/
theorem C63_line (env : Env) (st : State) (hp : Spec.ProperPaths (status env st).1) (e : Entry) (he : e ∈ (status env st).1) :
    Spec.Says env.cwd (entryLine env.cwd e) (Spec.meaning e) := by
  obtain ⟨hd, hs⟩ := hp e he
  obtain ⟨hc, _⟩ := mem_statusList he
  unfold entryLine Spec.meaning
  cases ho : e.op with
  | set t =>
    cases t with
    | create => have := Spec.Says.created (cwd := env.cwd) (shownPath env.cwd e.dest); rw [place_shown hd] at this; exact this
    | modify => have := Spec.Says.modified (cwd := env.cwd) (shownPath env.cwd e.dest); rw [place_shown hd] at this; exact this
  | remove =>
    simp only
    cases hso : e.source with
    | none => have := Spec.Says.removed (cwd := env.cwd) (display e.dest); rw [place_display hd] at this; exact this
    | some s =>
      have := Spec.Says.removed (cwd := env.cwd) (shownPath env.cwd s.path)
      rw [place_shown (hs s hso), remove_src_eq hc ho hso] at this
      simp only
      rw [remove_src_eq hc ho hso]
      exact this
  | rename =>
    obtain ⟨s, hso⟩ := rename_src_eq hc ho
    simp only [hso, Option.map_some, Option.getD_some]
    have := Spec.Says.renamed (cwd := env.cwd) (shownPath env.cwd s.path) (shownPath env.cwd e.dest)
    rw [place_shown (hs s hso), place_shown hd] at this
    exact this
  | error x =>
    cases x with
    | unsupportedFileType =>
      have := Spec.Says.unsupported (cwd := env.cwd) (shownPath env.cwd e.dest)
      rw [place_shown hd, ← errorTail_unsupported, ← List.append_assoc, ← List.append_assoc] at this
      exact this
    | redirectPathNotFound =>
      have := Spec.Says.noRedirect (cwd := env.cwd) (shownPath env.cwd e.dest)
      rw [place_shown hd, ← errorTail_redirect, ← List.append_assoc, ← List.append_assoc] at this
      exact this

/-- No name contains a line break or the character `>`. -/
def Spec.PlainNames (l : List Entry) : Prop :=
  ∀ e ∈ l, (∀ n ∈ e.dest, '\n' ∉ n ∧ '>' ∉ n) ∧ ∀ s, e.source = some s → ∀ n ∈ s.path, '\n' ∉ n ∧ '>' ∉ n

theorem not_mem_relText {c : Char} (hc : c ≠ '/') : ∀ {r : Path}, (∀ n ∈ r, c ∉ n) → c ∉ relText r
  | [], _ => by simp [relText]
  | [n], h => by simpa [relText] using h
  | n :: m :: r, h => by
    have ih := not_mem_relText hc (r := m :: r) (fun x hx => h x (List.mem_cons_of_mem _ hx))
    simp only [relText, List.mem_append, List.mem_cons, not_or]
    exact ⟨h n (by simp), hc, ih⟩

theorem not_mem_display {c : Char} (hc : c ≠ '/') {r : Path} (h : ∀ n ∈ r, c ∉ n) : c ∉ display r := by
  unfold display
  split
  · simpa using hc
  · simp only [List.mem_flatMap, List.mem_cons, not_exists, not_and, not_or]
    exact fun n hn => ⟨hc, h n hn⟩

theorem not_mem_shown {c : Char} (hc : c ≠ '/') {cwd r : Path} (h : ∀ n ∈ r, c ∉ n) : c ∉ shownPath cwd r := by
  unfold shownPath
  split
  · exact not_mem_relText hc (fun n hn => h n (List.mem_of_mem_drop hn))
  · exact not_mem_display hc h

theorem sep_inj {α : Type} {c : α} : ∀ {u v s t : List α}, c ∉ u → c ∉ v → u ++ c :: s = v ++ c :: t → u = v ∧ s = t
  | [], [], _, _, _, _, h => by simpa using h
  | [], d :: v, _, _, _, hv, h => by
    simp only [List.nil_append, List.cons_append, List.cons.injEq] at h
    exact absurd (by rw [h.1]; exact List.mem_cons_self) hv
  | d :: u, [], _, _, hu, _, h => by
    simp only [List.nil_append, List.cons_append, List.cons.injEq] at h
    exact absurd (by rw [h.1]; exact List.mem_cons_self) hu
  | d :: u, e :: v, s, t, hu, hv, h => by
    simp only [List.cons_append, List.cons.injEq] at h
    obtain ⟨h1, h2⟩ := sep_inj (fun x => hu (List.mem_cons_of_mem _ x)) (fun x => hv (List.mem_cons_of_mem _ x)) h.2
    exact ⟨by rw [h.1, h1], h2⟩

/-- Lines without line breaks can be told apart in the text. -/
theorem stdoutText_inj : ∀ {l m : List Str}, (∀ s ∈ l, '\n' ∉ s) → (∀ s ∈ m, '\n' ∉ s) → stdoutText l = stdoutText m → l = m
  | [], [], _, _, _ => rfl
  | [], b :: m, _, _, h => by simp [stdoutText] at h
  | a :: l, [], _, _, h => by simp [stdoutText] at h
  | a :: l, b :: m, hl, hm, h => by
    simp only [stdoutText, List.flatMap_cons, List.append_assoc, List.singleton_append] at h
    obtain ⟨h1, h2⟩ := sep_inj (hl a (by simp)) (hm b (by simp)) h
    rw [h1, stdoutText_inj (fun s hs => hl s (by simp [hs])) (fun s hs => hm s (by simp [hs])) h2]

/-- The symbol of a change and what follows it in the line. -/
def lineSymbol (e : Entry) : Char := match e.op with | .set .create => '+' | .set .modify => '~' | .remove => '-' | .rename => '>' | .error _ => '!'

theorem entryLine_symbol (cwd : Path) (e : Entry) : ∃ r, entryLine cwd e = ' ' :: ' ' :: ' ' :: lineSymbol e :: ' ' :: r := by
  unfold entryLine lineSymbol
  rcases e.op with (_ | _) | _ | _ | _ <;> exact ⟨_, rfl⟩

theorem errorTail_ends (x : ChangeError) : ∃ k, str " (error: " ++ (errorText x ++ str ")") = k ++ [if x = .unsupportedFileType then '.' else '?', ')'] := by
  cases x
  · exact ⟨(str " (error: " ++ (errorText .unsupportedFileType ++ str ")")).dropLast.dropLast, by decide +kernel⟩
  · exact ⟨(str " (error: " ++ (errorText .redirectPathNotFound ++ str ")")).dropLast.dropLast, by decide +kernel⟩

/-- Equal lines mean equal changes. -/
theorem entryLine_inj {env env' : Env} {st st' : State} (hcwd : env.cwd = env'.cwd) {e e' : Entry} (he : e ∈ (status env st).1) (he' : e' ∈ (status env' st').1)
    (hp : Spec.ProperPaths (status env st).1) (hp' : Spec.ProperPaths (status env' st').1) (hn : Spec.PlainNames (status env st).1) (hn' : Spec.PlainNames (status env' st').1)
    (h : entryLine env.cwd e = entryLine env'.cwd e') : Spec.meaning e = Spec.meaning e' := by
  rw [← hcwd] at h
  obtain ⟨hd, hs⟩ := hp e he
  obtain ⟨hd', hs'⟩ := hp' e' he'
  obtain ⟨hc, _⟩ := mem_statusList he
  obtain ⟨hc', _⟩ := mem_statusList he'
  have hsym : lineSymbol e = lineSymbol e' := by
    obtain ⟨r, hr⟩ := entryLine_symbol env.cwd e
    obtain ⟨r', hr'⟩ := entryLine_symbol env.cwd e'
    rw [hr, hr'] at h
    simp only [List.cons.injEq, true_and] at h
    exact h.1
  have place : ∀ {p q : Path}, NormalPath p → NormalPath q → shownPath env.cwd p = shownPath env.cwd q → p = q := by
    intro p q hp hq h
    rw [← place_shown (cwd := env.cwd) hp, h, place_shown hq]
  have removed : ∀ {x : Entry} {env : Env} {st : State} {cwd : Path}, x ∈ changes env st → x.op = .remove → NormalPath x.dest → (∀ s, x.source = some s → NormalPath s.path) →
      ∃ t, entryLine cwd x = str "   - " ++ t ∧ Spec.placeIn cwd t = x.dest := by
    intro x env st cwd hx ho h1 h2
    unfold entryLine
    simp only [ho]
    refine ⟨_, rfl, ?_⟩
    cases hso : x.source with
    | none => exact place_display h1
    | some s =>
      simp only
      rw [remove_src_eq hx ho hso]
      exact place_shown h1
  cases ho : e.op with
  | set t =>
    cases ho' : e'.op with
    | set t' =>
      have ht : t = t' := by
        unfold lineSymbol at hsym
        rw [ho, ho'] at hsym
        cases t <;> cases t' <;> first | rfl | (revert hsym; simp)
      subst ht
      have hdd : e.dest = e'.dest := by
        refine place hd hd' ?_
        unfold entryLine at h
        cases t <;> simp only [ho, ho', List.append_cancel_left_eq] at h <;> exact h
      unfold Spec.meaning
      rw [ho, ho', hdd]
      cases t <;> rfl
    | remove => unfold lineSymbol at hsym; rw [ho, ho'] at hsym; cases t <;> (revert hsym; simp)
    | rename => unfold lineSymbol at hsym; rw [ho, ho'] at hsym; cases t <;> (revert hsym; simp)
    | error => unfold lineSymbol at hsym; rw [ho, ho'] at hsym; cases t <;> (revert hsym; simp)
  | remove =>
    have ho' : e'.op = .remove := by
      unfold lineSymbol at hsym
      rw [ho] at hsym
      rcases hoo : e'.op with (_ | _) | _ | _ | _ <;> rw [hoo] at hsym <;> first | rfl | (revert hsym; simp)
    obtain ⟨t, h1, h2⟩ := removed (cwd := env.cwd) hc ho hd hs
    obtain ⟨t', h1', h2'⟩ := removed (cwd := env.cwd) hc' ho' hd' hs'
    rw [h1, h1', List.append_cancel_left_eq] at h
    unfold Spec.meaning
    rw [ho, ho', ← h2, ← h2', h]
  | rename =>
    have ho' : e'.op = .rename := by
      unfold lineSymbol at hsym
      rw [ho] at hsym
      rcases hoo : e'.op with (_ | _) | _ | _ | _ <;> rw [hoo] at hsym <;> first | rfl | (revert hsym; simp)
    obtain ⟨s, hso⟩ := rename_src_eq hc ho
    obtain ⟨s', hso'⟩ := rename_src_eq hc' ho'
    have hgt : ∀ {p : Path}, (∀ n ∈ p, '\n' ∉ n ∧ '>' ∉ n) → '>' ∉ shownPath env.cwd p := fun h => not_mem_shown (by decide) (fun n hn => (h n hn).2)
    have harrow : ∀ (a b : Str), str "   > " ++ a ++ str " -> " ++ b = str "   > " ++ ((a ++ [' ', '-']) ++ '>' :: (' ' :: b)) := by
      intro a b
      simp only [List.append_assoc]
      rfl
    unfold entryLine at h
    simp only [ho, ho', hso, hso'] at h
    rw [harrow, harrow, List.append_cancel_left_eq] at h
    obtain ⟨h1, h2⟩ := sep_inj (c := '>') (by simp only [List.mem_append, not_or]; exact ⟨hgt ((hn e he).2 s hso), by decide⟩)
      (by simp only [List.mem_append, not_or]; exact ⟨hgt ((hn' e' he').2 s' hso'), by decide⟩) h
    have e1 := place (hs s hso) (hs' s' hso') (List.append_cancel_right h1)
    have e2 := place hd hd' (by simpa using h2)
    unfold Spec.meaning
    rw [ho, ho', hso, hso']
    simp only [Option.map_some, Option.getD_some]
    rw [e1, e2]
  | error x =>
    cases ho' : e'.op with
    | error x' =>
      unfold entryLine at h
      simp only [ho, ho', List.append_assoc, List.append_cancel_left_eq] at h
      have hx : x = x' := by
        obtain ⟨k, hk⟩ := errorTail_ends x
        obtain ⟨k', hk'⟩ := errorTail_ends x'
        rw [hk, hk', ← List.append_assoc, ← List.append_assoc] at h
        have := (List.append_inj' h rfl).2
        cases x <;> cases x' <;> first | rfl | exact absurd this (by decide)
      subst hx
      have := place hd hd' (List.append_cancel_right h)
      unfold Spec.meaning
      rw [ho, ho', this]
    | remove => unfold lineSymbol at hsym; rw [ho, ho'] at hsym; (revert hsym; simp)
    | rename => unfold lineSymbol at hsym; rw [ho, ho'] at hsym; (revert hsym; simp)
    | set t => unfold lineSymbol at hsym; rw [ho, ho'] at hsym; cases t <;> (revert hsym; simp)

/-- The listing as lines. -/
def rawLines (listed : List Str) (some? : Bool) (n : Nat) : List Str :=
  [] :: (if some? then str "Matching changes:" else str "No matching changes") :: (listed ++
    [] :: (if n > 0 then [(toString n).toList ++ str " external or non-matching changes", [], []] else [[]]))

theorem statusText_raw (env : Env) (st : State) : ∃ b, statusText env st = stdoutText (rawLines ((status env st).1.map (entryLine env.cwd)) b (status env st).2) := by
  have e1 : str "\nMatching changes:" = '\n' :: str "Matching changes:" := by decide +kernel
  have e2 : str "\nNo matching changes" = '\n' :: str "No matching changes" := by decide +kernel
  have e3 : str "\n" = ['\n'] := by decide +kernel
  unfold statusText statusPrints status rawLines
  rw [e1, e2, e3]
  simp only
  split
  · refine ⟨true, ?_⟩
    rw [if_pos rfl]
    split <;> simp only [stdoutText, List.flatMap_cons, List.flatMap_append, List.flatMap_nil, List.cons_append, List.nil_append, List.append_assoc, List.append_nil]
  · next h1 =>
    refine ⟨false, ?_⟩
    have hnil : statusList (selected env st) = [] := by
      unfold statusList
      exact if_neg h1
    rw [if_neg (show ¬ (false = true) by decide), hnil]
    split <;> simp only [stdoutText, List.flatMap_cons, List.flatMap_append, List.flatMap_nil, List.cons_append, List.nil_append, List.append_assoc, List.append_nil, List.map_nil]

theorem not_newline_digits (n : Nat) : '\n' ∉ (toString n).toList := by
  have e : (toString n).toList = Nat.toDigits 10 n := Nat.toList_repr
  rw [e]
  intro h
  have := Nat.isDigit_of_mem_toDigits (by decide) (by decide) h
  revert this
  decide

theorem entryLine_newline {cwd : Path} {e : Entry} (hn : (∀ n ∈ e.dest, '\n' ∉ n ∧ '>' ∉ n) ∧ ∀ s, e.source = some s → ∀ n ∈ s.path, '\n' ∉ n ∧ '>' ∉ n) :
    '\n' ∉ entryLine cwd e := by
  have hd := not_mem_shown (c := '\n') (cwd := cwd) (by decide) (fun n h => (hn.1 n h).1)
  have hd' := not_mem_display (c := '\n') (by decide) (fun n h => (hn.1 n h).1)
  have hs : '\n' ∉ (match e.source with | some s => shownPath cwd s.path | none => display e.dest) := by
    split
    · next s hso => exact not_mem_shown (by decide) (fun n h => (hn.2 s hso n h).1)
    · exact hd'
  have hx : ∀ x, '\n' ∉ errorText x := by intro x; cases x <;> decide +kernel
  unfold entryLine
  rcases e.op with (_ | _) | _ | _ | x
  · simp only [List.mem_append, not_or]; exact ⟨by decide, hd⟩
  · simp only [List.mem_append, not_or]; exact ⟨by decide, hd⟩
  · simp only [List.mem_append, not_or]; exact ⟨by decide, hs⟩
  · simp only [List.mem_append, not_or]; exact ⟨⟨⟨by decide, hs⟩, by decide⟩, hd⟩
  · simp only [List.mem_append, not_or]; exact ⟨⟨⟨⟨by decide, hd⟩, by decide⟩, hx x⟩, by decide⟩

theorem map_inj_of {α β γ : Type} {f : α → β} {g : α → β} {m : α → γ} : ∀ {l l' : List α}, (∀ a ∈ l, ∀ b ∈ l', f a = g b → m a = m b) → l.map f = l'.map g → l.map m = l'.map m
  | [], [], _, _ => rfl
  | [], b :: l', _, h => by simp at h
  | a :: l, [], _, h => by simp at h
  | a :: l, b :: l', hm, h => by
    simp only [List.map_cons, List.cons.injEq] at h
    simp only [List.map_cons, List.cons.injEq]
    exact ⟨hm a (by simp) b (by simp) h.1, map_inj_of (fun x hx y hy => hm x (by simp [hx]) y (by simp [hy])) h.2⟩

/-- **C63**: the text status prints determines the listed changes and their order, and the number of others, if no name contains a line break or `>`. -/
theorem C63_unambiguous_partial (env env' : Env) (st st' : State) (hcwd : env.cwd = env'.cwd) (hp : Spec.ProperPaths (status env st).1)
    (hp' : Spec.ProperPaths (status env' st').1) (hn : Spec.PlainNames (status env st).1) (hn' : Spec.PlainNames (status env' st').1)
    (h : statusText env st = statusText env' st') :
    (status env st).1.map Spec.meaning = (status env' st').1.map Spec.meaning ∧ (status env st).2 = (status env' st').2 := by
  obtain ⟨b, hb⟩ := statusText_raw env st
  obtain ⟨b', hb'⟩ := statusText_raw env' st'
  rw [hb, hb'] at h
  have hnl : ∀ (l : List Str) (b : Bool) (n : Nat), (∀ s ∈ l, '\n' ∉ s) → ∀ s ∈ rawLines l b n, '\n' ∉ s := by
    intro l b n hl s hs
    unfold rawLines at hs
    simp only [List.mem_cons, List.mem_append] at hs
    rcases hs with rfl | rfl | hs | rfl | hs
    · simp
    · split <;> decide
    · exact hl s hs
    · simp
    · split at hs
      · simp only [List.mem_cons, List.not_mem_nil, or_false] at hs
        rcases hs with rfl | rfl | rfl
        · simp only [List.mem_append, not_or]; exact ⟨not_newline_digits n, by decide⟩
        · simp
        · simp
      · simp only [List.mem_cons, List.not_mem_nil, or_false] at hs
        rw [hs]; simp
  have hraw := stdoutText_inj
    (hnl _ _ _ (by intro s hs; obtain ⟨e, he, rfl⟩ := List.mem_map.1 hs; exact entryLine_newline (hn e he)))
    (hnl _ _ _ (by intro s hs; obtain ⟨e, he, rfl⟩ := List.mem_map.1 hs; exact entryLine_newline (hn' e he))) h
  unfold rawLines at hraw
  simp only [List.cons.injEq, true_and] at hraw
  have hne : ∀ {cwd : Path} {l : List Entry}, ([] : Str) ∉ l.map (entryLine cwd) := by
    intro cwd l hm
    obtain ⟨e, _, he⟩ := List.mem_map.1 hm
    obtain ⟨r, hr⟩ := entryLine_symbol cwd e
    rw [hr] at he; cases he
  obtain ⟨h1, h2⟩ := sep_inj (c := ([] : Str)) hne hne hraw.2
  refine ⟨map_inj_of (fun a ha a' ha' hl => entryLine_inj hcwd ha ha' hp hp' hn hn' hl) h1, ?_⟩
  split at h2 <;> split at h2
  · simp only [List.cons.injEq, and_true] at h2
    exact toString_inj (List.append_cancel_right h2)
  · simp at h2
  · simp at h2
  · omega

/-- **C63**, JSON: the value of `changes` determines the listed changes and where each is staged, whatever characters names contain. -/
theorem C63_json (env env' : Env) (st st' : State) (hw : st.upper.WF) (hw' : st'.upper.WF) (hp : Spec.ProperPaths (status env st).1)
    (hp' : Spec.ProperPaths (status env' st').1) (h : statusJson env st = statusJson env' st') :
    (status env st).1.map (fun e => (Spec.meaning e, e.staged.map (·.path))) = (status env' st').1.map (fun e => (Spec.meaning e, e.staged.map (·.path))) := by
  refine map_inj_of ?_ h
  intro e he e' he' hj
  obtain ⟨hd, hs⟩ := hp e he
  obtain ⟨hd', hs'⟩ := hp' e' he'
  have hc := (mem_statusList he).1
  have hc' := (mem_statusList he').1
  unfold entryJson at hj
  simp only [EntryJson.mk.injEq] at hj
  obtain ⟨h1, h2, h3, h4, _, h6⟩ := hj
  have hdest := display_inj hd hd' h1
  have opt : ∀ {a b : Option Details}, (∀ s, a = some s → NormalPath s.path) → (∀ s, b = some s → NormalPath s.path) →
      a.map (fun s => display s.path) = b.map (fun s => display s.path) → a.map (·.path) = b.map (·.path) := by
    intro a b ha hb h
    cases a with
    | none => cases b with
      | none => rfl
      | some _ => cases h
    | some s => cases b with
      | none => cases h
      | some t =>
        simp only [Option.map_some, Option.some.injEq] at h ⊢
        exact display_inj (ha s rfl) (hb t rfl) h
  have hsrc := opt hs hs' h3
  have hst := opt (fun s hs => hw.normal_of_get (changes_staged hc hs).1) (fun s hs => hw'.normal_of_get (changes_staged hc' hs).1) h4
  have hop : e.op = e'.op := by
    rcases ho : e.op with (_ | _) | _ | _ | (_ | _) <;> rcases ho' : e'.op with (_ | _) | _ | _ | (_ | _) <;> rw [ho, ho'] at h2 h6 <;>
      first | rfl | (exact absurd h2 (by decide)) | (exact absurd h6 (by decide))
  unfold Spec.meaning
  rw [hop, hdest, hsrc, hst]

instance (l : List Entry) : Decidable (Spec.ProperPaths l) := by
  unfold Spec.ProperPaths
  exact decidable_of_iff (∀ e ∈ l, NormalPath e.dest ∧ ∀ s ∈ e.source.toList, NormalPath s.path) (by simp)

instance (l : List Entry) : Decidable (Spec.PlainNames l) := by
  unfold Spec.PlainNames
  exact decidable_of_iff (∀ e ∈ l, (∀ n ∈ e.dest, '\n' ∉ n ∧ '>' ∉ n) ∧ ∀ s ∈ e.source.toList, ∀ n ∈ s.path, '\n' ∉ n ∧ '>' ∉ n) (by simp)

/-- Non-vacuity: a removed file, a new file, a FIFO. -/
example : Spec.ProperPaths (status exEnv exState).1 ∧ Spec.PlainNames (status exEnv exState).1 ∧ exState.upper.WF ∧
    (status exEnv exState).1.map Spec.meaning = [.failed [str "d", str "p"] .unsupportedFileType, .removed [str "d", str "f"], .created [str "d", str "g"]] ∧
    statusText exEnv exState = str ("\nMatching changes:\n   ! p (error: Unsupported file type. Only files, directories, and symlinks are supported.)\n" ++
      "   - f\n   + g\n\n\n") := by decide +kernel

/-- Two sandboxes over the same host: one has two new files `a` and `b`, the other a single new file whose name is `a`, a line break, `   + b`. -/
def exSpoof (names : List Name) : State :=
  ⟨[([], { kind := .dir }), ([str "d"], { kind := .dir })],
    [([], { kind := .dir }), ([str "F4"], { kind := .dir }), ([str "F4", str "d"], { kind := .dir })] ++ names.map (fun n => ([str "F4", str "d", n], { kind := .reg [] }))⟩

/-- **C63 refuted** for names with line breaks: the two listings are the same text, although the changes are different. -/
theorem C63_refuted_newline : statusText exEnv (exSpoof [str "a", str "b"]) = statusText exEnv (exSpoof [str "a\n   + b"]) ∧
    (exSpoof [str "a", str "b"]).upper.WF ∧ (exSpoof [str "a\n   + b"]).upper.WF ∧
    (status exEnv (exSpoof [str "a", str "b"])).1.map Spec.meaning = [.created [str "d", str "a"], .created [str "d", str "b"]] ∧
    (status exEnv (exSpoof [str "a\n   + b"])).1.map Spec.meaning = [.created [str "d", str "a\n   + b"]] := by decide +kernel

/-- Two directories of the host, `a` and `a -> b`, one of which was renamed. -/
def exArrow (old new : Name) : State :=
  ⟨[([], { kind := .dir }), ([str "d"], { kind := .dir }), ([str "d", str "a"], { kind := .dir }), ([str "d", str "a -> b"], { kind := .dir })],
    [([], { kind := .dir }), ([str "F4"], { kind := .dir }), ([str "F4", str "d"], { kind := .dir }), ([str "F4", str "d", old], { kind := .chr 0 }),
     ([str "F4", str "d", new], { kind := .dir, redirect := some old })]⟩

/-- **C63 refuted** for names with ` -> `: the rename of `a` to `b -> c` and the rename of `a -> b` to `c` look the same. -/
theorem C63_refuted_arrow : statusText exEnv (exArrow (str "a") (str "b -> c")) = statusText exEnv (exArrow (str "a -> b") (str "c")) ∧
    (exArrow (str "a") (str "b -> c")).upper.WF ∧ (exArrow (str "a -> b") (str "c")).upper.WF ∧
    (status exEnv (exArrow (str "a") (str "b -> c"))).1.map Spec.meaning = [.renamed [str "d", str "a"] [str "d", str "b -> c"]] ∧
    (status exEnv (exArrow (str "a -> b") (str "c"))).1.map Spec.meaning = [.renamed [str "d", str "a -> b"] [str "d", str "c"]] := by decide +kernel

end SB
