import Verif.Registry.Search

/-!
Property C126: the texts that specify a registry.

Model of `simple_url_validator` and `registry_from_specification` (src/mccode_antlr/reader/registry.py 18-36, 414-459) with all kinds of
registry. Of `urlparse` the scheme and the address are modelled; addresses with square brackets, which it may refuse, are not.
-/

namespace Verif.Registry

/-- What is constructed, with the arguments: `LocalRegistry`, `ModuleRemoteRegistry`, `GitHubRegistry`. -/
inductive Made
  | localDir (name path : String)
  | moduleRemote (name url file : String)
  | github (name url version file : String)
  deriving DecidableEq, Repr

/-- What `Path` says of a text. -/
structure Files where
  exist : String → Bool
  isDir : String → Bool
  isFile : String → Bool
  resolve : String → String

/-- The characters of a scheme (`urllib.parse.scheme_chars`). -/
def schemeChar (c : Char) : Bool := c.isAlphanum || c = '+' || c = '-' || c = '.'

/-- `urlparse(url).scheme`: what is before the first colon, in lower case, if it looks like one. -/
def scheme (url : String) : String :=
  let s := url.toList.takeWhile (· ≠ ':')
  if s.length < url.toList.length ∧ (s.head?.any Char.isAlpha) ∧ s.all schemeChar then lower (String.ofList s) else ""

/-- `urlparse(url).netloc`, where there is a scheme. -/
def netloc (url : String) : String :=
  match (url.toList.dropWhile (· ≠ ':')).drop 1 with
  | '/' :: '/' :: r => String.ofList (r.takeWhile fun c => c ≠ '/' && c ≠ '?' && c ≠ '#')
  | _ => ""

/-- `simple_url_validator(url, file_ok=True)` (18-36). -/
def urlOk (url : String) : Bool :=
  if scheme url = "" then false
  else if scheme url ≠ "file" ∧ netloc url = "" then false
  else true

/-- `registry_from_specification` (414-459). -/
def specOf (fs : Files) (spec : String) : Except Err (Option Made) :=
  match words spec with
  | [] => .ok none
  | w :: ws =>
    let p1 := unquote w
    let p2 := unquote (ws.headD w)
    let p3 := ws[1]?.map unquote
    let p4 := ws[2]?.map unquote
    if fs.exist p2 ∧ fs.isDir p2 then .ok (some (.localDir p1 (fs.resolve p2)))
    else if !urlOk p2 then .ok none
    else
      match p3 with
      | none => .error .typeError
      | some p3 =>
        if fs.exist p3 ∧ fs.isFile p3 then .ok (some (.moduleRemote p1 p2 (fs.resolve p3)))
        else
          match p4 with
          | some p4 => .ok (some (.github p1 p2 p3 p4))
          | none => .ok none

/-! ### C126 -/

theorem words_join2 (a b : String) : words (a ++ " " ++ b) = words a ++ words b := by
  have h : (a ++ " " ++ b).toList = a.toList ++ ' ' :: b.toList := by simp
  simp only [words, h]
  rw [List.splitOnP_append_cons _ _ (by decide), List.filter_append, List.map_append]

/-- `w` is how `t` may be written: as it is, if it does not begin with a quote, or in quotes; without blanks. -/
def Written (w t : String) : Prop :=
  (∀ c ∈ t.toList, c.isWhitespace = false) ∧ ((w = t ∧ t ≠ "" ∧ t.toList.head? ≠ some '"') ∨ w = "\"" ++ t ++ "\"")

theorem Written.words {w t : String} (h : Written w t) : words w = [w] := by
  obtain ⟨hb, ⟨rfl, hn, -⟩ | rfl⟩ := h
  · exact words_of_no_blank (by simpa using hn) hb
  · refine words_of_no_blank (by simp) ?_
    intro c hc
    simp only [String.toList_append, List.mem_append] at hc
    rcases hc with (hc | hc) | hc
    · have : c = '"' := by simpa using hc
      subst this; decide
    · exact hb c hc
    · have : c = '"' := by simpa using hc
      subst this; decide

theorem Written.unquote {w t : String} (h : Written w t) : unquote w = t := by
  obtain ⟨_, ⟨rfl, -, hh⟩ | rfl⟩ := h
  · rw [Registry.unquote, if_neg fun h => hh h.1]
  · exact unquote_quoted t

variable (fs : Files)

/-- C126, first and second form: a directory, with a name or without. -/
theorem form_directory (wn name wd dir : String) (hn : Written wn name) (hd : Written wd dir) (he : fs.exist dir = true)
    (hi : fs.isDir dir = true) :
    specOf fs wd = .ok (some (.localDir dir (fs.resolve dir))) ∧
    specOf fs (wn ++ " " ++ wd) = .ok (some (.localDir name (fs.resolve dir))) := by
  constructor
  · simp [specOf, hd.words, hd.unquote, he, hi]
  · simp [specOf, words_join2, hn.words, hd.words, hd.unquote, hn.unquote, he, hi]

/-- C126, third form: a name, a URL that is not the name of a directory, and a file. -/
theorem form_module (wn name wu url wf file : String) (hn : Written wn name) (hu : Written wu url) (hf : Written wf file)
    (hx : fs.isDir url = false) (ho : urlOk url = true) (he : fs.exist file = true) (hi : fs.isFile file = true) :
    specOf fs (wn ++ " " ++ wu ++ " " ++ wf) = .ok (some (.moduleRemote name url (fs.resolve file))) := by
  simp [specOf, words_join2, hn.words, hu.words, hf.words, hn.unquote, hu.unquote, hf.unquote, hx, ho, he, hi]

/-- C126, fourth form: a name, a URL, a version and the name of a file, if the version is not the name of a file. What follows is
ignored. -/
theorem form_github_partial (wn name wu url wv version wf file rest : String) (hn : Written wn name) (hu : Written wu url)
    (hv : Written wv version) (hf : Written wf file) (hx : fs.isDir url = false) (ho : urlOk url = true)
    (hi : fs.isFile version = false) :
    specOf fs (wn ++ " " ++ wu ++ " " ++ wv ++ " " ++ wf) = .ok (some (.github name url version file)) ∧
    specOf fs (wn ++ " " ++ wu ++ " " ++ wv ++ " " ++ wf ++ " " ++ rest) = .ok (some (.github name url version file)) := by
  constructor <;>
  simp [specOf, words_join2, hn.words, hu.words, hv.words, hf.words, hn.unquote, hu.unquote, hv.unquote, hf.unquote, hx, ho, hi]

/-- C126 fails: if there is a file of the name of the version, the fourth form makes the third kind of registry, of that file. -/
theorem version_is_file (wn name wu url wv version wf file : String) (hn : Written wn name) (hu : Written wu url)
    (hv : Written wv version) (hf : Written wf file) (hx : fs.isDir url = false) (ho : urlOk url = true)
    (he : fs.exist version = true) (hi : fs.isFile version = true) :
    specOf fs (wn ++ " " ++ wu ++ " " ++ wv ++ " " ++ wf) = .ok (some (.moduleRemote name url (fs.resolve version))) := by
  simp [specOf, words_join2, hn.words, hu.words, hv.words, hf.words, hn.unquote, hu.unquote, hv.unquote, hx, ho, hi, he]

/-- C126 fails: a URL without a third word raises `TypeError`, it is not refused as other texts are. -/
theorem url_alone_raises (wn name wu url : String) (hn : Written wn name) (hu : Written wu url) (hx : fs.isDir url = false)
    (ho : urlOk url = true) :
    specOf fs wu = .error .typeError ∧ specOf fs (wn ++ " " ++ wu) = .error .typeError := by
  constructor
  · simp [specOf, hu.words, hu.unquote, hx, ho]
  · simp [specOf, words_join2, hn.words, hu.words, hu.unquote, hx, ho]

/-- C126: nothing else is accepted: what is made is one of the documented forms. -/
theorem made_only (spec : String) (m : Made) (h : specOf fs spec = .ok (some m)) :
    ∃ w ws, words spec = w :: ws ∧
      ((m = .localDir (unquote w) (fs.resolve (unquote (ws.headD w))) ∧ fs.isDir (unquote (ws.headD w)) = true) ∨
      (∃ u f r, ws = u :: f :: r ∧ m = .moduleRemote (unquote w) (unquote u) (fs.resolve (unquote f)) ∧ urlOk (unquote u) = true ∧
        fs.isFile (unquote f) = true) ∨
      (∃ u v f r, ws = u :: v :: f :: r ∧ m = .github (unquote w) (unquote u) (unquote v) (unquote f) ∧ urlOk (unquote u) = true)) := by
  rw [specOf] at h
  cases hw : words spec with
  | nil => simp [hw] at h
  | cons w ws =>
    refine ⟨w, ws, rfl, ?_⟩
    simp only [hw] at h
    split_ifs at h with h1 h2
    · simp only [Except.ok.injEq, Option.some.injEq] at h
      exact .inl ⟨h.symm, h1.2⟩
    · simp at h
    · have hu : urlOk (unquote (ws.headD w)) = true := by simpa using h2
      clear h2
      rcases ws with _ | ⟨u, _ | ⟨f, ws⟩⟩
      · simp at h
      · simp at h
      · simp only [List.getElem?_cons_succ, List.getElem?_cons_zero, Option.map_some] at h
        simp only [List.headD_cons] at hu
        split_ifs at h with h3
        · simp only [Except.ok.injEq, Option.some.injEq, List.headD_cons] at h
          exact .inr (.inl ⟨u, f, ws, rfl, h.symm, hu, h3.2⟩)
        · rcases ws with _ | ⟨x, ws⟩
          · simp at h
          · simp only [List.getElem?_cons_zero, Option.map_some, Except.ok.injEq, Option.some.injEq, List.headD_cons] at h
            exact .inr (.inr ⟨u, f, x, ws, rfl, h.symm, hu⟩)

/-- C126: what is refused: no words; a second word that is neither a directory nor a URL, whatever follows; a URL with only one word
after it that is not the name of a file. -/
theorem refused (wn name wu url wv version rest : String) (hn : Written wn name) (hu : Written wu url) (hv : Written wv version)
    (hx : fs.isDir url = false) :
    specOf fs "" = .ok none ∧ (urlOk url = false → specOf fs wu = .ok none ∧ specOf fs (wn ++ " " ++ wu ++ " " ++ rest) = .ok none) ∧
    (urlOk url = true → fs.isFile version = false → specOf fs (wn ++ " " ++ wu ++ " " ++ wv) = .ok none) := by
  refine ⟨by simp [specOf, words], fun ho => ⟨?_, ?_⟩, fun ho hi => ?_⟩
  · simp [specOf, hu.words, hu.unquote, hx, ho]
  · simp [specOf, words_join2, hn.words, hu.words, hu.unquote, hx, ho]
  · simp [specOf, words_join2, hn.words, hu.words, hv.words, hu.unquote, hv.unquote, hx, ho, hi]

/-- C126: what counts as a URL: a scheme of letters, then `://` and an address that is not empty. -/
theorem web_address (s host path : List Char) (hs : s ≠ []) (hl : ∀ c ∈ s, c.isAlpha = true) (hh : host ≠ [])
    (hp : ∀ c ∈ host, c ≠ '/' ∧ c ≠ '?' ∧ c ≠ '#') (hc : path = [] ∨ path.head? = some '/') :
    urlOk (String.ofList (s ++ ':' :: '/' :: '/' :: (host ++ path))) = true := by
  have hcol : ∀ c ∈ s, decide (c ≠ ':') = true := by
    intro c hc
    rw [decide_eq_true_iff]
    rintro rfl
    exact absurd (hl _ hc) (by decide)
  have ht : (s ++ ':' :: '/' :: '/' :: (host ++ path)).takeWhile (fun c => decide (c ≠ ':')) = s := by
    rw [List.takeWhile_append_of_pos hcol]
    simp
  have hd : (s ++ ':' :: '/' :: '/' :: (host ++ path)).dropWhile (fun c => decide (c ≠ ':')) =
      ':' :: '/' :: '/' :: (host ++ path) := by
    rw [List.dropWhile_append_of_pos hcol]
    simp
  have hsc : scheme (String.ofList (s ++ ':' :: '/' :: '/' :: (host ++ path))) = lower (String.ofList s) := by
    rw [scheme]
    simp only [String.toList_ofList, ht]
    rw [if_pos]
    refine ⟨by simp, ?_, ?_⟩
    · cases s with
      | nil => exact absurd rfl hs
      | cons c s => simpa using hl c (by simp)
    · rw [List.all_eq_true]
      intro c hc
      simp [schemeChar, Char.isAlphanum, hl c hc]
  have hn : netloc (String.ofList (s ++ ':' :: '/' :: '/' :: (host ++ path))) = String.ofList host := by
    rw [netloc]
    simp only [String.toList_ofList, hd, List.drop_one, List.tail_cons]
    rw [List.takeWhile_append_of_pos]
    · rcases hc with rfl | hc
      · simp
      · cases path with
        | nil => simp
        | cons c path =>
          simp only [List.head?_cons, Option.some.injEq] at hc
          subst hc
          simp
    · intro c hc
      simpa [and_assoc] using hp c hc
  have h1 : lower (String.ofList s) ≠ "" := by
    intro h
    have := congrArg String.toList h
    simp [lower] at this
    exact hs this
  have h2 : String.ofList host ≠ "" := by
    intro h
    have := congrArg String.toList h
    simp at this
    exact hh this
  rw [urlOk, hsc, hn, if_neg h1, if_neg fun h => h2 h.2]

/-- C126: no scheme or no address: not a URL, unless it is that of a file. -/
theorem not_address : urlOk "github.com/x/y" = false ∧ urlOk "https:x" = false ∧ urlOk "file:/x" = true ∧ urlOk "C:/x" = false ∧
    urlOk "://x" = false ∧ urlOk "1x://y" = false ∧ urlOk "FILE:/x" = true ∧ urlOk "https:///x" = false ∧ urlOk "a_b://x" = false := by
  decide +kernel

example : Written "mine" "mine" ∧ Written "\"mine\"" "mine" ∧ urlOk "https://x.org/y" = true := by
  refine ⟨⟨by decide, .inl ⟨rfl, by decide, by decide⟩⟩, ⟨by decide, .inr (by decide)⟩, by decide +kernel⟩

end Verif.Registry
