import Verif.Model.Config

/-! How the steps of `resolveConfig` act on each value and its recorded origin (proof machinery). -/

namespace SB

@[simp] theorem put_fst (acc : Partial × Sources) (u : Option (Partial → Partial)) (k : Key) (s : Str) : (put acc u k s).1 = (u.getD id) acc.1 := by
  cases u <;> rfl

@[simp] theorem sources_get_insert (s : Sources) (k k' : Key) (v : Str) : (s.insert k v).get k' = if k = k' then some v else s.get k' := by
  unfold Sources.insert Sources.get
  by_cases h : k = k'
  · simp [h]
  · simp [h]

@[simp] theorem put_get (acc : Partial × Sources) (u : Option (Partial → Partial)) (k k' : Key) (s : Str) :
    (put acc u k s).2.get k' = if k = k' ∧ u.isSome = true then some s else acc.2.get k' := by
  cases u with
  | none => simp [put]
  | some f => simp [put, sources_get_insert]

@[simp] theorem logLevel_setLogLevel (o : Option Level) (p : Partial) : (((o.map setLogLevel).getD id) p).logLevel = o.or p.logLevel := by cases o <;> rfl
@[simp] theorem name_setLogLevel (o : Option Level) (p : Partial) : (((o.map setLogLevel).getD id) p).name = p.name := by cases o <;> rfl
@[simp] theorem storageDir_setLogLevel (o : Option Level) (p : Partial) : (((o.map setLogLevel).getD id) p).storageDir = p.storageDir := by cases o <;> rfl
@[simp] theorem net_setLogLevel (o : Option Level) (p : Partial) : (((o.map setLogLevel).getD id) p).net = p.net := by cases o <;> rfl
@[simp] theorem ignored_setLogLevel (o : Option Level) (p : Partial) : (((o.map setLogLevel).getD id) p).ignored = p.ignored := by cases o <;> rfl
@[simp] theorem noDefaultBinds_setLogLevel (o : Option Level) (p : Partial) : (((o.map setLogLevel).getD id) p).noDefaultBinds = p.noDefaultBinds := by cases o <;> rfl
@[simp] theorem bind_setLogLevel (o : Option Level) (p : Partial) : (((o.map setLogLevel).getD id) p).bind = p.bind := by cases o <;> rfl
@[simp] theorem mask_setLogLevel (o : Option Level) (p : Partial) : (((o.map setLogLevel).getD id) p).mask = p.mask := by cases o <;> rfl
@[simp] theorem logLevel_setName (o : Option Str) (p : Partial) : (((o.map setName).getD id) p).logLevel = p.logLevel := by cases o <;> rfl
@[simp] theorem name_setName (o : Option Str) (p : Partial) : (((o.map setName).getD id) p).name = o.or p.name := by cases o <;> rfl
@[simp] theorem storageDir_setName (o : Option Str) (p : Partial) : (((o.map setName).getD id) p).storageDir = p.storageDir := by cases o <;> rfl
@[simp] theorem net_setName (o : Option Str) (p : Partial) : (((o.map setName).getD id) p).net = p.net := by cases o <;> rfl
@[simp] theorem ignored_setName (o : Option Str) (p : Partial) : (((o.map setName).getD id) p).ignored = p.ignored := by cases o <;> rfl
@[simp] theorem noDefaultBinds_setName (o : Option Str) (p : Partial) : (((o.map setName).getD id) p).noDefaultBinds = p.noDefaultBinds := by cases o <;> rfl
@[simp] theorem bind_setName (o : Option Str) (p : Partial) : (((o.map setName).getD id) p).bind = p.bind := by cases o <;> rfl
@[simp] theorem mask_setName (o : Option Str) (p : Partial) : (((o.map setName).getD id) p).mask = p.mask := by cases o <;> rfl
@[simp] theorem logLevel_setStorageDir (o : Option Str) (p : Partial) : (((o.map setStorageDir).getD id) p).logLevel = p.logLevel := by cases o <;> rfl
@[simp] theorem name_setStorageDir (o : Option Str) (p : Partial) : (((o.map setStorageDir).getD id) p).name = p.name := by cases o <;> rfl
@[simp] theorem storageDir_setStorageDir (o : Option Str) (p : Partial) : (((o.map setStorageDir).getD id) p).storageDir = o.or p.storageDir := by cases o <;> rfl
@[simp] theorem net_setStorageDir (o : Option Str) (p : Partial) : (((o.map setStorageDir).getD id) p).net = p.net := by cases o <;> rfl
@[simp] theorem ignored_setStorageDir (o : Option Str) (p : Partial) : (((o.map setStorageDir).getD id) p).ignored = p.ignored := by cases o <;> rfl
@[simp] theorem noDefaultBinds_setStorageDir (o : Option Str) (p : Partial) : (((o.map setStorageDir).getD id) p).noDefaultBinds = p.noDefaultBinds := by cases o <;> rfl
@[simp] theorem bind_setStorageDir (o : Option Str) (p : Partial) : (((o.map setStorageDir).getD id) p).bind = p.bind := by cases o <;> rfl
@[simp] theorem mask_setStorageDir (o : Option Str) (p : Partial) : (((o.map setStorageDir).getD id) p).mask = p.mask := by cases o <;> rfl
@[simp] theorem logLevel_setNet (o : Option Net) (p : Partial) : (((o.map setNet).getD id) p).logLevel = p.logLevel := by cases o <;> rfl
@[simp] theorem name_setNet (o : Option Net) (p : Partial) : (((o.map setNet).getD id) p).name = p.name := by cases o <;> rfl
@[simp] theorem storageDir_setNet (o : Option Net) (p : Partial) : (((o.map setNet).getD id) p).storageDir = p.storageDir := by cases o <;> rfl
@[simp] theorem net_setNet (o : Option Net) (p : Partial) : (((o.map setNet).getD id) p).net = o.or p.net := by cases o <;> rfl
@[simp] theorem ignored_setNet (o : Option Net) (p : Partial) : (((o.map setNet).getD id) p).ignored = p.ignored := by cases o <;> rfl
@[simp] theorem noDefaultBinds_setNet (o : Option Net) (p : Partial) : (((o.map setNet).getD id) p).noDefaultBinds = p.noDefaultBinds := by cases o <;> rfl
@[simp] theorem bind_setNet (o : Option Net) (p : Partial) : (((o.map setNet).getD id) p).bind = p.bind := by cases o <;> rfl
@[simp] theorem mask_setNet (o : Option Net) (p : Partial) : (((o.map setNet).getD id) p).mask = p.mask := by cases o <;> rfl
@[simp] theorem logLevel_setIgnored (o : Option Bool) (p : Partial) : (((o.map setIgnored).getD id) p).logLevel = p.logLevel := by cases o <;> rfl
@[simp] theorem name_setIgnored (o : Option Bool) (p : Partial) : (((o.map setIgnored).getD id) p).name = p.name := by cases o <;> rfl
@[simp] theorem storageDir_setIgnored (o : Option Bool) (p : Partial) : (((o.map setIgnored).getD id) p).storageDir = p.storageDir := by cases o <;> rfl
@[simp] theorem net_setIgnored (o : Option Bool) (p : Partial) : (((o.map setIgnored).getD id) p).net = p.net := by cases o <;> rfl
@[simp] theorem ignored_setIgnored (o : Option Bool) (p : Partial) : (((o.map setIgnored).getD id) p).ignored = o.or p.ignored := by cases o <;> rfl
@[simp] theorem noDefaultBinds_setIgnored (o : Option Bool) (p : Partial) : (((o.map setIgnored).getD id) p).noDefaultBinds = p.noDefaultBinds := by cases o <;> rfl
@[simp] theorem bind_setIgnored (o : Option Bool) (p : Partial) : (((o.map setIgnored).getD id) p).bind = p.bind := by cases o <;> rfl
@[simp] theorem mask_setIgnored (o : Option Bool) (p : Partial) : (((o.map setIgnored).getD id) p).mask = p.mask := by cases o <;> rfl
@[simp] theorem logLevel_setNoDefaultBinds (o : Option Bool) (p : Partial) : (((o.map setNoDefaultBinds).getD id) p).logLevel = p.logLevel := by cases o <;> rfl
@[simp] theorem name_setNoDefaultBinds (o : Option Bool) (p : Partial) : (((o.map setNoDefaultBinds).getD id) p).name = p.name := by cases o <;> rfl
@[simp] theorem storageDir_setNoDefaultBinds (o : Option Bool) (p : Partial) : (((o.map setNoDefaultBinds).getD id) p).storageDir = p.storageDir := by cases o <;> rfl
@[simp] theorem net_setNoDefaultBinds (o : Option Bool) (p : Partial) : (((o.map setNoDefaultBinds).getD id) p).net = p.net := by cases o <;> rfl
@[simp] theorem ignored_setNoDefaultBinds (o : Option Bool) (p : Partial) : (((o.map setNoDefaultBinds).getD id) p).ignored = p.ignored := by cases o <;> rfl
@[simp] theorem noDefaultBinds_setNoDefaultBinds (o : Option Bool) (p : Partial) : (((o.map setNoDefaultBinds).getD id) p).noDefaultBinds = o.or p.noDefaultBinds := by cases o <;> rfl
@[simp] theorem bind_setNoDefaultBinds (o : Option Bool) (p : Partial) : (((o.map setNoDefaultBinds).getD id) p).bind = p.bind := by cases o <;> rfl
@[simp] theorem mask_setNoDefaultBinds (o : Option Bool) (p : Partial) : (((o.map setNoDefaultBinds).getD id) p).mask = p.mask := by cases o <;> rfl
@[simp] theorem logLevel_addBind (o : Option (List Str)) (p : Partial) : (((o.map addBind).getD id) p).logLevel = p.logLevel := by cases o <;> rfl
@[simp] theorem name_addBind (o : Option (List Str)) (p : Partial) : (((o.map addBind).getD id) p).name = p.name := by cases o <;> rfl
@[simp] theorem storageDir_addBind (o : Option (List Str)) (p : Partial) : (((o.map addBind).getD id) p).storageDir = p.storageDir := by cases o <;> rfl
@[simp] theorem net_addBind (o : Option (List Str)) (p : Partial) : (((o.map addBind).getD id) p).net = p.net := by cases o <;> rfl
@[simp] theorem ignored_addBind (o : Option (List Str)) (p : Partial) : (((o.map addBind).getD id) p).ignored = p.ignored := by cases o <;> rfl
@[simp] theorem noDefaultBinds_addBind (o : Option (List Str)) (p : Partial) : (((o.map addBind).getD id) p).noDefaultBinds = p.noDefaultBinds := by cases o <;> rfl
@[simp] theorem bind_addBind (o : Option (List Str)) (p : Partial) : (((o.map addBind).getD id) p).bind = (match o with | some l => extend p.bind l | none => p.bind) := by cases o <;> rfl
@[simp] theorem mask_addBind (o : Option (List Str)) (p : Partial) : (((o.map addBind).getD id) p).mask = p.mask := by cases o <;> rfl
@[simp] theorem logLevel_addMask (o : Option (List Str)) (p : Partial) : (((o.map addMask).getD id) p).logLevel = p.logLevel := by cases o <;> rfl
@[simp] theorem name_addMask (o : Option (List Str)) (p : Partial) : (((o.map addMask).getD id) p).name = p.name := by cases o <;> rfl
@[simp] theorem storageDir_addMask (o : Option (List Str)) (p : Partial) : (((o.map addMask).getD id) p).storageDir = p.storageDir := by cases o <;> rfl
@[simp] theorem net_addMask (o : Option (List Str)) (p : Partial) : (((o.map addMask).getD id) p).net = p.net := by cases o <;> rfl
@[simp] theorem ignored_addMask (o : Option (List Str)) (p : Partial) : (((o.map addMask).getD id) p).ignored = p.ignored := by cases o <;> rfl
@[simp] theorem noDefaultBinds_addMask (o : Option (List Str)) (p : Partial) : (((o.map addMask).getD id) p).noDefaultBinds = p.noDefaultBinds := by cases o <;> rfl
@[simp] theorem bind_addMask (o : Option (List Str)) (p : Partial) : (((o.map addMask).getD id) p).bind = p.bind := by cases o <;> rfl
@[simp] theorem mask_addMask (o : Option (List Str)) (p : Partial) : (((o.map addMask).getD id) p).mask = (match o with | some l => extend p.mask l | none => p.mask) := by cases o <;> rfl

end SB
