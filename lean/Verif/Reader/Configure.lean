import Mathlib.Data.List.Infix
import Mathlib.Data.List.TakeWhile
import Mathlib.Data.List.Basic
import Mathlib.Tactic.Linarith

/-!
C113: configuring the header of the run-time library (`TargetVisitor.configure_file`, src/mccode_antlr/translators/target.py 74-113, called in
translators/c.py 302) with the values set by `registry_defaults` (config/__init__.py 49-70) and the defaults (config/config_default.yaml).

Text is a list of characters. A registry is what is asked of it: its name, its version, its text, whether it knows the file, whether it does
once, and the contents of the file. `packaging.version` is a function from versions to three numbers. Not modelled: the lines before and
after the contents.
-/

namespace Verif.Configure

abbrev Text := List Char

/-- The text before a key. -/
def mark : Text := "@MCCODE_".toList

/-- `[A-Z_]` -/
def isKeyChar (c : Char) : Bool := c = '_' || ('A' ≤ c && c ≤ 'Z')

/-- `@MCCODE_([A-Z_]*)@` (107) at the start of a text: the group, and what follows. -/
def matchKey (s : Text) : Option (Text × Text) :=
  if mark <+: s then
    match (s.drop 8).dropWhile isKeyChar with
    | [] => none
    | c :: r => if c = '@' then some ((s.drop 8).takeWhile isKeyChar, r) else none
  else none

/-- `re.sub` (107), from left to right. `fuel` bounds the number of steps. -/
def substFuel (f : Text → Text) : Nat → Text → Text
  | 0, s => s
  | _ + 1, [] => []
  | n + 1, c :: t =>
    match matchKey (c :: t) with
    | some (name, r) => f name ++ substFuel f n r
    | none => c :: substFuel f n t

def subst (f : Text → Text) (s : Text) : Text := substFuel f s.length s

/-- The configuration: the value of a key of a project, if there is one. -/
abbrev Config := Text → Text → Option Text

/-- `replacement` (95-104). -/
def replacement (config : Config) (flavor name : Text) : Text :=
  let name := name.map Char.toLower
  match config flavor name with
  | some v => v
  | none =>
    if "date".toList <:+: name then "1970-01-01".toList
    else if name = "version_macro".toList ∨ "number".toList <:+: name then "0".toList
    else "{UNKNOWN}".toList

structure Registry where
  name : Text
  version : Text
  shown : Text
  known : Text → Bool
  unique : Text → Bool
  read : Text → Text

/-- `version_macro` (config/__init__.py 53-59). -/
def versionMacro (parse : Text → Option (Nat × Nat × Nat)) (version : Text) : Nat :=
  match parse version with
  | some (major, minor, micro) => (major * 100 + minor) * 1000 + micro
  | none => 399999

/-- What a project is set to (61-66). -/
def projectValues (parse : Text → Option (Nat × Nat × Nat)) (today : Text) (r : Registry) (key : Text) : Option Text :=
  if key = "string".toList then some (r.shown.filter (· ≠ '\n'))
  else if key = "version".toList then some r.version
  else if key = "version_macro".toList then some (Nat.repr (versionMacro parse r.version)).toList
  else if key = "date".toList then some today
  else none

/-- `registry_defaults` (49-70): the values are set on top of those there are. -/
def registryDefaults (parse : Text → Option (Nat × Nat × Nat)) (today : Text) (r : Registry) (projects : List Text) (config : Config) :
    Config := fun project key =>
  if project ∈ projects then
    match projectValues parse today r key with
    | some v => some v
    | none => config project key
  else config project key

inductive Err
  | runtimeError
  deriving DecidableEq, Repr

/-- `configure_file` (74-113): the text written. -/
def configureFile (parse : Text → Option (Nat × Nat × Nat)) (today : Text) (regs : List Registry) (config : Config) (filename flavor : Text) :
    Except Err Text :=
  if ¬ ".h.in".toList <:+ filename then .error .runtimeError
  else
    match regs.find? (·.known filename) with
    | none => .error .runtimeError
    | some r =>
      match regs.filter (·.unique filename) with
      | [u] => .ok (subst (replacement (registryDefaults parse today u [u.name] config) flavor) (r.read filename))
      | _ => .error .runtimeError

/-- The values of the two flavors that come with the package (config_default.yaml 1-16). -/
def packaged : Config := fun project key =>
  if project = "mcstas".toList then
    [("name", "mcstas"), ("particle", "neutron"), ("particle_code", "2112"), ("lib", "nlib"), ("libenv", "MCSTAS"), ("prefix", "mc"),
      ("project", "1")].findSome? fun p => if key = p.1.toList then some p.2.toList else none
  else if project = "mcxtrace".toList then
    [("name", "mcxtrace"), ("particle", "xray"), ("particle_code", "22"), ("lib", "xlib"), ("libenv", "MCXTRACE"), ("prefix", "mx"),
      ("project", "2")].findSome? fun p => if key = p.1.toList then some p.2.toList else none
  else none

/-! ### Lemmas -/

theorem matchKey_length (s name r : Text) (h : matchKey s = some (name, r)) : r.length < s.length := by
  rw [matchKey] at h
  split_ifs at h with h0
  have hd : ((s.drop 8).dropWhile isKeyChar).length ≤ s.length :=
    le_trans (List.IsSuffix.length_le (List.dropWhile_suffix _)) (by rw [List.length_drop]; omega)
  rcases hr : (s.drop 8).dropWhile isKeyChar with _ | ⟨c, t⟩
  · simp only [hr] at h
    cases h
  · simp only [hr] at h
    rw [hr, List.length_cons] at hd
    split_ifs at h
    simp only [Option.some.injEq, Prod.mk.injEq] at h
    rw [← h.2]
    omega

theorem substFuel_enough (f : Text → Text) (n : Nat) (s : Text) (h : s.length ≤ n) : substFuel f n s = subst f s := by
  suffices ∀ (k n : Nat) (s : Text), s.length ≤ k → s.length ≤ n → substFuel f n s = substFuel f k s from this _ _ _ le_rfl h
  intro k
  induction k with
  | zero =>
    intro n s hk _
    rw [List.length_eq_zero_iff.1 (Nat.le_zero.1 hk)]
    cases n <;> rfl
  | succ k ih =>
    intro n s hk hn
    match n, s with
    | 0, [] => rfl
    | n + 1, [] => rfl
    | n + 1, c :: t =>
      simp only [substFuel]
      simp only [List.length_cons, Nat.add_le_add_iff_right] at hk hn
      rcases hm : matchKey (c :: t) with _ | ⟨m, r⟩
      · simp only [ih n t hk hn]
      · have := matchKey_length _ _ _ hm
        rw [List.length_cons] at this
        simp only [ih n r (by omega) (by omega)]

theorem subst_cons (f : Text → Text) (c : Char) (t : Text) (h : matchKey (c :: t) = none) : subst f (c :: t) = c :: subst f t := by
  rw [subst, List.length_cons, substFuel]
  simp only [h]
  rfl

theorem subst_match (f : Text → Text) (s name r : Text) (h : matchKey s = some (name, r)) : subst f s = f name ++ subst f r := by
  have hl := matchKey_length s name r h
  match s, h, hl with
  | c :: t, h, hl =>
    rw [subst, List.length_cons, substFuel]
    simp only [h]
    rw [substFuel_enough f _ _ (by rw [List.length_cons] at hl; omega)]

/-- A text in which no key begins, whatever follows it. -/
def Plain (p : Text) : Prop := ∀ t, t ≠ [] → t <:+ p → ¬ "@MCCODE_".toList <+: t ∧ ¬ t <+: "@MCCODE_".toList

theorem subst_plain (f : Text → Text) (p r : Text) (h : Plain p) : subst f (p ++ r) = p ++ subst f r := by
  induction p with
  | nil => rfl
  | cons c p ih =>
    have hn : matchKey (c :: p ++ r) = none := by
      rw [matchKey, if_neg]
      intro hp
      have h1 := h (c :: p) (List.cons_ne_nil _ _) List.suffix_rfl
      rcases List.prefix_or_prefix_of_prefix hp (List.prefix_append (c :: p) r) with h' | h'
      · exact h1.1 h'
      · exact h1.2 h'
    rw [List.cons_append] at hn ⊢
    rw [subst_cons f _ _ hn, ih fun t ht hs => h t ht (hs.trans (List.suffix_cons c p))]
    rfl

theorem matchKey_key (name r : Text) (hn : ∀ c ∈ name, isKeyChar c = true) :
    matchKey ("@MCCODE_".toList ++ name ++ '@' :: r) = some (name, r) := by
  have hd : ("@MCCODE_".toList ++ name ++ '@' :: r).drop 8 = name ++ '@' :: r := by
    rw [List.append_assoc]
    rfl
  have ha : isKeyChar '@' = false := by decide
  have h1 : (name ++ '@' :: r).takeWhile isKeyChar = name := by
    rw [List.takeWhile_append_of_pos hn]
    simp [ha]
  have h2 : (name ++ '@' :: r).dropWhile isKeyChar = '@' :: r := by
    rw [List.dropWhile_append_of_pos hn]
    simp [ha]
  rw [matchKey, if_pos (by rw [List.append_assoc]; exact List.prefix_append _ _), hd, h2]
  simp only [h1, if_true]

/-! ### C113 -/

/-- C113: every key is replaced, and nothing else is changed. -/
theorem keys_replaced (f : Text → Text) (parts : List (Text × Text)) (last : Text) (hl : Plain last)
    (h : ∀ p ∈ parts, Plain p.1 ∧ ∀ c ∈ p.2, c = '_' ∨ ('A' ≤ c ∧ c ≤ 'Z')) :
    subst f (parts.flatMap (fun p => p.1 ++ "@MCCODE_".toList ++ p.2 ++ ['@']) ++ last) =
      parts.flatMap (fun p => p.1 ++ f p.2) ++ last := by
  induction parts with
  | nil =>
    have := subst_plain f last [] hl
    simpa [subst, substFuel] using this
  | cons p parts ih =>
    obtain ⟨h1, h2⟩ := h p List.mem_cons_self
    have hk : ∀ c ∈ p.2, isKeyChar c = true := by
      intro c hc
      have := h2 c hc
      simpa [isKeyChar] using this
    have e : (p :: parts).flatMap (fun p => p.1 ++ "@MCCODE_".toList ++ p.2 ++ ['@']) ++ last =
        p.1 ++ ("@MCCODE_".toList ++ p.2 ++ '@' :: (parts.flatMap (fun p => p.1 ++ "@MCCODE_".toList ++ p.2 ++ ['@']) ++ last)) := by
      simp [List.flatMap_cons, List.append_assoc]
    rw [e, subst_plain f _ _ h1, subst_match f _ _ _ (matchKey_key p.2 _ hk), ih fun q hq => h q (List.mem_cons_of_mem _ hq)]
    simp [List.flatMap_cons, List.append_assoc]

/-- C113: if the registry the file is in has the name of the flavor, the keys for its text, version and the date get their values. -/
theorem values_partial (parse : Text → Option (Nat × Nat × Nat)) (today : Text) (r : Registry) (config : Config) :
    replacement (registryDefaults parse today r [r.name] config) r.name "VERSION".toList = r.version ∧
    replacement (registryDefaults parse today r [r.name] config) r.name "STRING".toList = r.shown.filter (· ≠ '\n') ∧
    replacement (registryDefaults parse today r [r.name] config) r.name "DATE".toList = today ∧
    replacement (registryDefaults parse today r [r.name] config) r.name "VERSION_MACRO".toList =
      (Nat.repr (versionMacro parse r.version)).toList := by
  have e1 : "VERSION".toList.map Char.toLower = "version".toList := by decide
  have e2 : "STRING".toList.map Char.toLower = "string".toList := by decide
  have e3 : "DATE".toList.map Char.toLower = "date".toList := by decide
  have e4 : "VERSION_MACRO".toList.map Char.toLower = "version_macro".toList := by decide
  have p1 : projectValues parse today r "version".toList = some r.version := by
    rw [projectValues, if_neg (by decide), if_pos rfl]
  have p2 : projectValues parse today r "string".toList = some (r.shown.filter (· ≠ '\n')) := by
    rw [projectValues, if_pos rfl]
  have p3 : projectValues parse today r "date".toList = some today := by
    rw [projectValues, if_neg (by decide), if_neg (by decide), if_neg (by decide), if_pos rfl]
  have p4 : projectValues parse today r "version_macro".toList = some (Nat.repr (versionMacro parse r.version)).toList := by
    rw [projectValues, if_neg (by decide), if_neg (by decide), if_pos rfl]
  have key : ∀ k v, projectValues parse today r k = some v → registryDefaults parse today r [r.name] config r.name k = some v := by
    intro k v hv
    rw [registryDefaults, if_pos (by simp)]
    simp only [hv]
  refine ⟨?_, ?_, ?_, ?_⟩
  · simp only [replacement, e1, key _ _ p1]
  · simp only [replacement, e2, key _ _ p2]
  · simp only [replacement, e3, key _ _ p3]
  · simp only [replacement, e4, key _ _ p4]

/-- C113 fails for the registries there are: the header is in the registry called libc (reader/registry.py 486) and the flavor is mcstas or
mcxtrace. In a registry not named like the flavor nothing that was set is found. Whatever the version is, the header has version {UNKNOWN}, number 0, and a date in 1970. -/
theorem version_unknown (parse : Text → Option (Nat × Nat × Nat)) (today : Text) (r : Registry) (flavor : Text)
    (hf : flavor = "mcstas".toList ∨ flavor = "mcxtrace".toList) (hr : r.name ≠ flavor) :
    replacement (registryDefaults parse today r [r.name] packaged) flavor "VERSION".toList = "{UNKNOWN}".toList ∧
    replacement (registryDefaults parse today r [r.name] packaged) flavor "STRING".toList = "{UNKNOWN}".toList ∧
    replacement (registryDefaults parse today r [r.name] packaged) flavor "DATE".toList = "1970-01-01".toList ∧
    replacement (registryDefaults parse today r [r.name] packaged) flavor "VERSION_MACRO".toList = "0".toList := by
  have hne : flavor ∉ [r.name] := by
    rw [List.mem_singleton]
    exact fun e => hr e.symm
  have hd : registryDefaults parse today r [r.name] packaged flavor = packaged flavor := by
    funext k
    rw [registryDefaults, if_neg hne]
  simp only [replacement, hd]
  rcases hf with rfl | rfl <;> decide

/-- The registry of the library meets the hypotheses. -/
example : "libc".toList ≠ "mcstas".toList ∧ "libc".toList ≠ "mcxtrace".toList := by decide

/-- C113: the file is configured if exactly one registry has it, and refused if several do. -/
theorem configured_iff (parse : Text → Option (Nat × Nat × Nat)) (today : Text) (regs : List Registry) (config : Config)
    (filename flavor : Text) (hin : ".h.in".toList <:+ filename) (hk : ∃ r ∈ regs, r.known filename = true) :
    (∃ out, configureFile parse today regs config filename flavor = .ok out) ↔ (regs.filter (·.unique filename)).length = 1 := by
  rw [configureFile, if_neg (by simpa using hin)]
  rcases hr : regs.find? (·.known filename) with _ | r
  · rw [List.find?_eq_none] at hr
    obtain ⟨r, hm, hk⟩ := hk
    exact absurd hk (hr r hm)
  · rcases hu : regs.filter (·.unique filename) with _ | ⟨u, _ | ⟨u', us⟩⟩ <;> simp [hr, hu]

/-- C113: what is written is the contents of the file in the first registry that knows it, with the keys replaced. -/
theorem configured (parse : Text → Option (Nat × Nat × Nat)) (today : Text) (regs : List Registry) (config : Config) (filename flavor out : Text)
    (h : configureFile parse today regs config filename flavor = .ok out) :
    ∃ (before after : List Registry) (r u : Registry), regs = before ++ r :: after ∧ (∀ x ∈ before, x.known filename = false) ∧
      r.known filename = true ∧ u ∈ regs ∧ u.unique filename = true ∧ (∀ x ∈ regs, x.unique filename = true → x = u) ∧
      out = subst (replacement (registryDefaults parse today u [u.name] config) flavor) (r.read filename) := by
  rw [configureFile] at h
  split_ifs at h
  rcases hr : regs.find? (·.known filename) with _ | r
  · simp only [hr] at h
    cases h
  · simp only [hr] at h
    rcases hu : regs.filter (·.unique filename) with _ | ⟨u, _ | ⟨u', us⟩⟩ <;> rw [hu] at h
    · cases h
    · obtain ⟨hk, before, after, hs, hb⟩ := List.find?_eq_some_iff_append.1 hr
      have hm : u ∈ regs.filter (·.unique filename) := by rw [hu]; simp
      rw [List.mem_filter] at hm
      refine ⟨before, after, r, u, hs, fun x hx => by simpa using hb x hx, hk, hm.1, hm.2, fun x hx hux => ?_, ?_⟩
      · have : x ∈ regs.filter (·.unique filename) := List.mem_filter.2 ⟨hx, hux⟩
        rw [hu] at this
        simpa using this
      · exact (Except.ok.inj h).symm
    · cases h

/-- C113: a copy of the file in a directory of the user, meant to replace the one of the library, is refused. -/
theorem own_copy_refused (parse : Text → Option (Nat × Nat × Nat)) (today : Text) (mine library : Registry) (config : Config)
    (filename flavor : Text) (h1 : mine.unique filename = true) (h2 : library.unique filename = true) :
    configureFile parse today [mine, library] config filename flavor = .error .runtimeError := by
  have hu : [mine, library].filter (·.unique filename) = [mine, library] := by simp [h1, h2]
  rw [configureFile, hu]
  split_ifs
  · split <;> rfl
  · rfl

/-- C113: the number of a version orders versions, as long as the second part is below 100 and the third below 1000. -/
theorem macro_order (parse : Text → Option (Nat × Nat × Nat)) (v w : Text) (a b c a' b' c' : Nat) (hv : parse v = some (a, b, c))
    (hw : parse w = some (a', b', c')) (hb : b < 100) (hb' : b' < 100) (hc : c < 1000) (hc' : c' < 1000) :
    versionMacro parse v < versionMacro parse w ↔ a < a' ∨ (a = a' ∧ (b < b' ∨ (b = b' ∧ c < c'))) := by
  simp only [versionMacro, hv, hw]
  constructor
  · intro h
    omega
  · rintro (h | ⟨rfl, h | ⟨rfl, h⟩⟩) <;> omega

/-- A header with an address and two keys meets the hypotheses. -/
example : subst (replacement (fun _ k => if k = "version".toList then some "v3.5.1".toList else none) "mcstas".toList)
    "a@b.dk\n#define V \"@MCCODE_VERSION@\" /* @MCCODE_DATE@ */".toList = "a@b.dk\n#define V \"v3.5.1\" /* 1970-01-01 */".toList := by
  decide +kernel

example : Plain "a@b.dk\n#define V \"".toList := by
  have key : ∀ p : Text, (∀ t ∈ p.tails, t ≠ [] → ¬ "@MCCODE_".toList <+: t ∧ ¬ t <+: "@MCCODE_".toList) → Plain p :=
    fun p h t ht hs => h t ((List.mem_tails t p).2 hs) ht
  exact key _ (by decide +kernel)

end Verif.Configure
