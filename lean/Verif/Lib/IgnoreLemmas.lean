import Verif.Spec.Ignore
import Verif.Spec.Host
import Verif.Lib.ChangesLemmas
import Verif.Lib.FSLemmas

/-! Lemmas about the ignore decision and its cache. -/

namespace SB

theorem resolveIgnores_eq (st : State) (u l : Path) : resolveIgnores st u l = Spec.rulesAt st u l := by
  unfold resolveIgnores Spec.rulesAt Spec.ignoreText
  simp only [List.flatMap_cons, List.flatMap_nil, List.append_nil]
  congr 1 <;>
  · cases readUpper st _ with
    | some c => rfl
    | none => cases readLower st _ <;> rfl

/-- Rules for the remaining components, with `done` already walked. -/
def rulesFrom (st : State) (m : Name) (mp : Path) : Path → Path → List (IgnorePattern × Str)
  | _, [] => []
  | done, c :: rest => (Spec.rulesAt st (m :: (done ++ [c])) (mp ++ (done ++ [c]))).map (fun r => (r, joinSlash rest)) ++
      rulesFrom st m mp (done ++ [c]) rest

theorem rulesFrom_eq (st : State) (m : Name) (mp : Path) (rest done : Path) : rulesFrom st m mp done rest =
    (List.range rest.length).flatMap (fun i =>
      (Spec.rulesAt st (m :: (done ++ rest.take (i + 1))) (mp ++ (done ++ rest.take (i + 1)))).map (fun r => (r, joinSlash (rest.drop (i + 1))))) := by
  induction rest generalizing done with
  | nil => simp [rulesFrom]
  | cons c rest ih =>
    simp only [rulesFrom, List.length_cons, List.range_succ_eq_map, List.flatMap_cons, List.flatMap_map]
    rw [ih]
    simp only [Nat.succ_eq_add_one, List.take_succ_cons, List.drop_succ_cons, List.append_assoc, List.singleton_append]
    rfl

theorem rulesFor_eq (st : State) (m : Name) (mp sub : Path) : Spec.rulesFor st m mp sub = rulesFrom st m mp [] sub := by
  rw [rulesFrom_eq]; rfl

/-- The decision as a fold over the rule sequence. -/
def decideRules (glob : Str → Str → Bool) (ig : Bool) (rules : List (IgnorePattern × Str)) : Bool :=
  rules.foldl (fun ig p => if glob p.1.pattern p.2 then !p.1.negate else ig) ig

theorem decideRules_iff (glob : Str → Str → Bool) (ig : Bool) (rules : List (IgnorePattern × Str)) :
    decideRules glob ig rules = true ↔ Spec.LastMatchHides glob rules ∨ (ig = true ∧ ∀ x ∈ rules, glob x.1.pattern x.2 = false) := by
  induction rules generalizing ig with
  | nil => simp [decideRules, Spec.LastMatchHides]
  | cons r rs ih =>
    have : decideRules glob ig (r :: rs) = decideRules glob (if glob r.1.pattern r.2 then !r.1.negate else ig) rs := rfl
    rw [this, ih]
    constructor
    · rintro (⟨pre, x, post, rfl, h⟩ | ⟨h1, h2⟩)
      · exact Or.inl ⟨r :: pre, x, post, rfl, h⟩
      · by_cases hg : glob r.1.pattern r.2 = true
        · rw [if_pos hg] at h1
          exact Or.inl ⟨[], r, rs, rfl, hg, by simpa using h1, h2⟩
        · rw [if_neg hg] at h1
          exact Or.inr ⟨h1, fun x hx => by
            rcases List.mem_cons.1 hx with rfl | hx
            · simpa using hg
            · exact h2 x hx⟩
    · rintro (⟨pre, x, post, he, h⟩ | ⟨h1, h2⟩)
      · cases pre with
        | nil =>
          simp only [List.nil_append, List.cons.injEq] at he
          obtain ⟨rfl, rfl⟩ := he
          exact Or.inr ⟨by rw [if_pos h.1, h.2.1]; rfl, h.2.2⟩
        | cons y pre =>
          simp only [List.cons_append, List.cons.injEq] at he
          obtain ⟨rfl, rfl⟩ := he
          exact Or.inl ⟨pre, x, post, rfl, h⟩
      · have hg := h2 r (by simp)
        exact Or.inr ⟨by simp [hg, h1], fun x hx => h2 x (by simp [hx])⟩

theorem decideRules_append (glob : Str → Str → Bool) (ig : Bool) (a b : List (IgnorePattern × Str)) :
    decideRules glob ig (a ++ b) = decideRules glob (decideRules glob ig a) b := by
  simp [decideRules, List.foldl_append]

theorem applyRules_eq (glob : Str → Str → Bool) (rel : Str) (ig : Bool) (ps : List IgnorePattern) :
    applyRules glob rel ig ps = decideRules glob ig (ps.map (fun r => (r, rel))) := by
  unfold applyRules decideRules
  rw [List.foldl_map]

/-- Every cached list is the one of each directory (of those in `U`) it may be used for. -/
def CacheOK (st : State) (U : Name → Path → Path → Prop) (c : IgnoreCache) : Prop :=
  ∀ d ps, cacheGet c d = some ps → ∀ m mp dir, U m mp dir → mp ++ dir = d → ps = Spec.rulesAt st (m :: dir) d

theorem cacheOK_nil (st : State) (U) : CacheOK st U [] := by
  intro d ps h; simp [cacheGet] at h

theorem cacheGet_cons (d : Path) (ps : List IgnorePattern) (c : IgnoreCache) (d' : Path) :
    cacheGet ((d, ps) :: c) d' = if d = d' then some ps else cacheGet c d' := by
  unfold cacheGet
  by_cases h : d = d'
  · simp [h]
  · simp [h]

/-- Directories of different mounts are different host directories. -/
def SepU (U : Name → Path → Path → Prop) : Prop :=
  ∀ m mp dir m' mp' dir', U m mp dir → U m' mp' dir' → mp ++ dir = mp' ++ dir' → m = m' ∧ dir = dir'

theorem ignoreLoop_spec {glob : Str → Str → Bool} {st : State} {U : Name → Path → Path → Prop} (hU : SepU U) (m : Name) (mp : Path) :
    ∀ (rest done : Path) (ig : Bool) (c : IgnoreCache), CacheOK st U c → (∀ d, d <+: rest → d ≠ [] → U m mp (done ++ d)) →
      (ignoreLoop glob st m mp done rest ig c).1 = decideRules glob ig (rulesFrom st m mp done rest) ∧
      CacheOK st U (ignoreLoop glob st m mp done rest ig c).2 := by
  intro rest
  induction rest with
  | nil => intro done ig c hc _; exact ⟨rfl, hc⟩
  | cons x rest ih =>
    intro done ig c hc hd
    have hx : U m mp (done ++ [x]) := hd [x] ⟨rest, rfl⟩ (by simp)
    have hd' : ∀ d, d <+: rest → d ≠ [] → U m mp (done ++ [x] ++ d) := by
      intro d h hne
      rw [List.append_assoc]
      exact hd (x :: d) ((List.prefix_cons_inj x).2 h) (by simp)
    simp only [ignoreLoop, rulesFrom, decideRules_append]
    cases hg : cacheGet c (mp ++ (done ++ [x])) with
    | some ps =>
      have := hc _ _ hg m mp _ hx rfl
      subst this
      simp only
      rw [applyRules_eq]
      exact ih (done ++ [x]) _ c hc hd'
    | none =>
      simp only
      rw [applyRules_eq, resolveIgnores_eq]
      refine ih (done ++ [x]) _ _ ?_ hd'
      intro d ps h m' mp' dir' hU' he
      rw [cacheGet_cons] at h
      split at h
      · next heq =>
        cases h
        obtain ⟨rfl, rfl⟩ := hU _ _ _ _ _ _ hx hU' (heq.trans he.symm)
        rw [heq]
      · exact hc d ps h m' mp' dir' hU' he

theorem builtIn_iff (glob : Str → Str → Bool) (p : Path) : builtInIgnore.any (fun b => glob b (display p)) = true ↔ Spec.BuiltIn glob p := by
  unfold Spec.BuiltIn builtInIgnore
  simp

/-- Decision for one path from any consistent cache. -/
theorem isIgnored_spec {glob : Str → Str → Bool} {st : State} {U : Name → Path → Path → Prop} (hU : SepU U) {m : Name} {mp sub : Path} {c : IgnoreCache}
    (hc : CacheOK st U c) (hd : ∀ d, d <+: sub → d ≠ [] → U m mp d) :
    ((isIgnored glob st m mp sub c).1 = true ↔ Spec.BuiltIn glob (mp ++ sub) ∨ Spec.LastMatchHides glob (Spec.rulesFor st m mp sub)) ∧
    CacheOK st U (isIgnored glob st m mp sub c).2 := by
  unfold isIgnored
  by_cases hb : builtInIgnore.any (fun p => glob p (display (mp ++ sub))) = true
  · rw [if_pos hb]
    exact ⟨⟨fun _ => Or.inl ((builtIn_iff _ _).1 hb), fun _ => rfl⟩, hc⟩
  · rw [if_neg hb]
    have hnb : ¬ Spec.BuiltIn glob (mp ++ sub) := fun h => hb ((builtIn_iff _ _).2 h)
    obtain ⟨h1, h2⟩ := ignoreLoop_spec (glob := glob) (st := st) hU m mp sub [] false c hc (fun d h hne => by simpa using hd d h hne)
    refine ⟨?_, h2⟩
    rw [h1, decideRules_iff, rulesFor_eq]
    simp [hnb]

theorem sepU_prefixes (m : Name) (mp sub : Path) : SepU (fun m' mp' d => m' = m ∧ mp' = mp ∧ d <+: sub) := by
  rintro _ _ d _ _ d' ⟨rfl, rfl, _⟩ ⟨rfl, rfl, _⟩ h
  exact ⟨rfl, List.append_cancel_left h⟩

/-- The directories of the storage, as seen by the scan. -/
def StoredDirs (env : Env) (upper : FS) : Name → Path → Path → Prop :=
  fun m mp d => env.decode m = some mp ∧ m :: d ∈ upper.keys ∧ d ≠ []

theorem sepU_stored {env : Env} {upper : FS} (h : Spec.SeparateMounts env upper) : SepU (StoredDirs env upper) := by
  rintro m mp d m' mp' d' ⟨h1, h2, h3⟩ ⟨h1', h2', h3'⟩ he
  have hm := h m m' d d' mp mp' h2 h2' h1 h1' h3 h3' he
  subst hm
  rw [h1] at h1'
  cases h1'
  exact ⟨rfl, List.append_cancel_left he⟩

/-- The kept list is the filter by the specification. -/
theorem keepLoop_spec {env : Env} {st : State} (hw : st.upper.WF) (hs : Spec.SeparateMounts env st.upper) (hi : env.includeIgnored = false) :
    ∀ (ks : List Path) (c : IgnoreCache), CacheOK st (StoredDirs env st.upper) c → (∀ k ∈ ks, k ∈ st.upper.keys) →
      ∀ m mp sub, ((m, mp, sub) ∈ keepLoop env st ks c ↔ m :: sub ∈ ks ∧ env.decode m = some mp ∧ sub ≠ [] ∧
        ¬ Spec.BuiltIn env.glob (mp ++ sub) ∧ ¬ Spec.LastMatchHides env.glob (Spec.rulesFor st m mp sub)) := by
  intro ks
  induction ks with
  | nil => intro c _ _ m mp sub; simp [keepLoop]
  | cons k ks ih =>
    intro c hc hk m mp sub
    have hk' : ∀ k ∈ ks, k ∈ st.upper.keys := fun q hq => hk q (by simp [hq])
    cases k with
    | nil => simp only [keepLoop]; rw [ih c hc hk']; simp
    | cons m1 sub1 =>
      simp only [keepLoop]
      cases hdec : env.decode m1 with
      | none =>
        simp only
        rw [ih c hc hk']
        constructor
        · rintro ⟨h, h'⟩; exact ⟨by simp [h], h'⟩
        · rintro ⟨h, h', h''⟩
          refine ⟨?_, h', h''⟩
          rcases List.mem_cons.1 h with h | h
          · cases h; rw [hdec] at h'; cases h'
          · exact h
      | some mp1 =>
        simp only [hi, Bool.false_eq_true, if_false]
        by_cases hsub : sub1 = []
        · rw [if_pos hsub, ih c hc hk']
          constructor
          · rintro ⟨h, h'⟩; exact ⟨by simp [h], h'⟩
          · rintro ⟨h, h', hne, h''⟩
            refine ⟨?_, h', hne, h''⟩
            rcases List.mem_cons.1 h with h | h
            · cases h; exact absurd hsub hne
            · exact h
        · rw [if_neg hsub]
          have hkey := hk (m1 :: sub1) (by simp)
          obtain ⟨n1, hn1⟩ := FS.mem_keys.1 hkey
          have hU : ∀ d, d <+: sub1 → d ≠ [] → StoredDirs env st.upper m1 mp1 d := by
            rintro d ⟨r, rfl⟩ hne
            refine ⟨hdec, ?_, hne⟩
            by_cases hr : r = []
            · subst hr; exact FS.mem_keys.2 ⟨n1, by simpa using hn1⟩
            · have := hw.ancestor (q := m1 :: d) hn1 ⟨r, hr, by simp⟩
              obtain ⟨n, hn, _⟩ := FS.isDirAt_iff.1 this
              exact FS.mem_keys.2 ⟨n, hn⟩
          obtain ⟨hdecide, hc'⟩ := isIgnored_spec (glob := env.glob) (sepU_stored hs) hc hU
          cases hig : isIgnored env.glob st m1 mp1 sub1 c with
          | mk ig c' =>
            rw [hig] at hdecide hc'
            simp only at hdecide hc' ⊢
            cases ig with
            | true =>
              simp only [if_true]
              rw [ih c' hc' hk']
              constructor
              · rintro ⟨h, h'⟩; exact ⟨by simp [h], h'⟩
              · rintro ⟨h, h', hne, hb, hl⟩
                refine ⟨?_, h', hne, hb, hl⟩
                rcases List.mem_cons.1 h with h | h
                · cases h
                  rw [hdec] at h'; cases h'
                  rcases hdecide.1 rfl with h | h
                  · exact absurd h hb
                  · exact absurd h hl
                · exact h
            | false =>
              simp only [Bool.false_eq_true, if_false, List.mem_cons]
              rw [ih c' hc' hk']
              have hnd : ¬ (Spec.BuiltIn env.glob (mp1 ++ sub1) ∨ Spec.LastMatchHides env.glob (Spec.rulesFor st m1 mp1 sub1)) := fun h => by
                have := hdecide.2 h; cases this
              constructor
              · rintro (h | ⟨h, h'⟩)
                · cases h
                  exact ⟨Or.inl rfl, hdec, hsub, fun h => hnd (Or.inl h), fun h => hnd (Or.inr h)⟩
                · exact ⟨Or.inr h, h'⟩
              · rintro ⟨h | h, h'⟩
                · cases h
                  rw [hdec] at h'
                  obtain ⟨h', _⟩ := h'; cases h'
                  exact Or.inl rfl
                · exact Or.inr ⟨h, h'⟩

end SB
