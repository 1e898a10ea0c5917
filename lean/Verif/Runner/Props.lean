import Verif.Runner.Model
import Mathlib.Data.List.Perm.Basic

/-! Properties C06, C07, C58: running scans and ordering run arguments. -/

namespace Verif.Runner
open Verif.Range Verif.Scan

/-! ### C07: reordering run arguments -/

/-- A block of consecutive words: a single word, or an option without `=` together with the plain word
following it. -/
inductive Block
  | word (w : Word)
  | optVal (o v : Word)

def Block.words : Block → List Word
  | .word w => [w]
  | .optVal o v => [o, v]

/-- A block which belongs to the options. -/
def Block.isOption : Block → Bool
  | .word w => w.head? == some '-'
  | .optVal _ _ => true

/-- An option that takes the next word as its value. -/
def Takes (o v : Word) : Prop :=
  o.head? = some '-' ∧ '=' ∉ o ∧ v.head? ≠ some '-' ∧ '=' ∉ v

/-- The words are cut into blocks from the left: a word which can take the following word as its value does. -/
inductive Cut : List Word → List Block → Prop
  | nil : Cut [] []
  | pair {o v ws bs} : Takes o v → Cut ws bs → Cut (o :: v :: ws) (.optVal o v :: bs)
  | one {w ws bs} : (∀ v, ws.head? = some v → ¬ Takes w v) → Cut ws bs → Cut (w :: ws) (.word w :: bs)

@[simp] theorem isOption_optVal (o v : Word) : (Block.optVal o v).isOption = true := rfl
@[simp] theorem words_optVal (o v : Word) : (Block.optVal o v).words = [o, v] := rfl

theorem flatten_sublist {α : Type} {a b : List (List α)} (h : a.Sublist b) : a.flatten.Sublist b.flatten := by
  induction h with
  | slnil => exact .refl _
  | cons x _ ih => exact ih.trans (by simp)
  | cons_cons x _ ih => simpa using ih

theorem takes_iff (o v : Word) : Takes o v ↔ (isOpt o && (!o.contains '=' && isPlain v)) = true := by
  simp [Takes, isOpt, isPlain, List.contains_iff_mem]

/-- **C07**: the words are cut into blocks and the option blocks are moved, in order, before the others. -/
theorem sort_args_moves_blocks (ws : List Word) :
    ∃ bs, Cut ws bs ∧ sortArgs ws =
      ((bs.filter Block.isOption).map Block.words).flatten ++
      ((bs.filter fun b => !b.isOption).map Block.words).flatten := by
  unfold sortArgs
  suffices h : ∃ bs, Cut ws bs ∧
      (sortLoop ws).1 = ((bs.filter Block.isOption).map Block.words).flatten ∧
      (sortLoop ws).2 = ((bs.filter fun b => !b.isOption).map Block.words).flatten by
    obtain ⟨bs, h1, h2, h3⟩ := h
    exact ⟨bs, h1, by rw [h2, h3]⟩
  induction ws using sortLoop.induct with
  | case1 => exact ⟨[], .nil, rfl, rfl⟩
  | case2 w h =>
    refine ⟨[.word w], .one (by simp) .nil, ?_, ?_⟩ <;>
      simp_all [sortLoop, Block.isOption, Block.words, isOpt]
  | case3 w h =>
    refine ⟨[.word w], .one (by simp) .nil, ?_, ?_⟩ <;>
      simp_all [sortLoop, Block.isOption, Block.words, isOpt]
  | case4 w v ws h1 h2 ih =>
    obtain ⟨bs, hc, e1, e2⟩ := ih
    refine ⟨.optVal w v :: bs, .pair ((takes_iff w v).2 (by rw [h1, h2]; rfl)) hc, ?_, ?_⟩
    · simp only [sortLoop, h1, h2, if_true]; simp [List.filter_cons, e1]
    · simp only [sortLoop, h1, h2, if_true]; simp [e2]
  | case5 w v ws h1 h2 ih =>
    obtain ⟨bs, hc, e1, e2⟩ := ih
    refine ⟨.word w :: bs, .one (fun x hx => ?_) hc, ?_, ?_⟩
    · simp only [List.head?_cons, Option.some.injEq] at hx
      subst hx
      rw [takes_iff, h1, Bool.true_and]
      exact h2
    · simp only [sortLoop, h1, if_true, if_neg h2]
      have : (w.head? == some '-') = true := h1
      simp [Block.isOption, Block.words, e1, this]
    · simp only [sortLoop, h1, if_true, if_neg h2]
      have : (w.head? == some '-') = true := h1
      simp [Block.isOption, e2, this]
  | case6 w v ws h1 ih =>
    obtain ⟨bs, hc, e1, e2⟩ := ih
    have hw : (w.head? == some '-') = false := by simpa [isOpt] using h1
    refine ⟨.word w :: bs, .one (fun x hx => ?_) hc, ?_, ?_⟩
    · rw [takes_iff]
      simp only [Bool.and_eq_true, not_and]
      exact fun h => absurd h h1
    · simp only [sortLoop, if_neg h1]; simp [Block.isOption, e1, hw]
    · simp only [sortLoop, if_neg h1]; simp [Block.isOption, Block.words, e2, hw]

/-- The cut is a cut of exactly the given words. -/
theorem cut_words (ws : List Word) (bs : List Block) (h : Cut ws bs) :
    (bs.map Block.words).flatten = ws := by
  induction h with
  | nil => rfl
  | pair _ _ ih => simp [Block.words, ih]
  | one _ _ ih => simp [Block.words, ih]

/-- There is only one cut. -/
theorem cut_unique (ws : List Word) (a b : List Block) (ha : Cut ws a) (hb : Cut ws b) : a = b := by
  induction ha generalizing b with
  | nil => cases hb; rfl
  | pair ht _ ih =>
    cases hb with
    | pair _ h => rw [ih _ h]
    | one hn _ => exact absurd ht (hn _ rfl)
  | one hn _ ih =>
    cases hb with
    | pair ht h => exact absurd ht (hn _ rfl)
    | one _ h => rw [ih _ h]

/-- **C07**: nothing is lost and nothing is duplicated. -/
theorem sort_args_permutes (ws : List Word) : (sortArgs ws).Perm ws := by
  obtain ⟨bs, hc, he⟩ := sort_args_moves_blocks ws
  rw [he, ← List.flatten_append, ← List.map_append]
  conv_rhs => rw [← cut_words ws bs hc]
  exact ((List.filter_append_perm Block.isOption bs).map _).flatten

/-- **C07**: the options come in the order they were given, and so do the other words. -/
theorem sort_args_keeps_order (ws : List Word) :
    ∃ first last, sortArgs ws = first ++ last ∧ first.Sublist ws ∧ last.Sublist ws ∧
      (∀ w ∈ last, w.head? ≠ some '-') := by
  obtain ⟨bs, hc, he⟩ := sort_args_moves_blocks ws
  refine ⟨_, _, he, ?_, ?_, ?_⟩
  · conv_rhs => rw [← cut_words ws bs hc]
    exact flatten_sublist (List.filter_sublist.map _)
  · conv_rhs => rw [← cut_words ws bs hc]
    exact flatten_sublist (List.filter_sublist.map _)
  · intro w hw
    simp only [List.mem_flatten, List.mem_map, List.mem_filter] at hw
    obtain ⟨l, ⟨b, ⟨_, hb⟩, rfl⟩, hwl⟩ := hw
    cases b with
    | word u =>
      simp only [Block.words, List.mem_singleton] at hwl
      subst hwl
      simpa [Block.isOption] using hb
    | optVal o v => simp [Block.isOption] at hb

/-- A list of words which starts with option blocks and has no option afterwards. -/
inductive Sorted : List Word → Prop
  | rest {ws} : (∀ w ∈ ws, w.head? ≠ some '-') → Sorted ws
  | opt {o ws} : o.head? = some '-' → (∀ v, ws.head? = some v → ¬ Takes o v) → Sorted ws → Sorted (o :: ws)
  | pair {o v ws} : Takes o v → Sorted ws → Sorted (o :: v :: ws)

theorem sortLoop_rest (ws : List Word) (h : ∀ w ∈ ws, w.head? ≠ some '-') : sortLoop ws = ([], ws) := by
  induction ws using sortLoop.induct with
  | case1 => rfl
  | case2 w hw => exact absurd (by simpa [isOpt] using hw) (h w (by simp))
  | case3 w hw => simp [sortLoop, hw]
  | case4 w v ws h1 h2 ih => exact absurd (by simpa [isOpt] using h1) (h w (by simp))
  | case5 w v ws h1 h2 ih => exact absurd (by simpa [isOpt] using h1) (h w (by simp))
  | case6 w v ws h1 ih =>
    simp only [sortLoop, if_neg h1]
    rw [ih (fun x hx => h x (by simp [hx]))]

theorem sortArgs_of_sorted (ws : List Word) (h : Sorted ws) : sortArgs ws = ws := by
  unfold sortArgs
  induction h with
  | rest h => rw [sortLoop_rest _ h]; rfl
  | @opt o ws ho hn _ ih =>
    have ho' : isOpt o = true := by simp [isOpt, ho]
    cases ws with
    | nil => simp [sortLoop, ho']
    | cons v ws =>
      have := hn v rfl
      rw [takes_iff, ho', Bool.true_and] at this
      simp only [sortLoop, ho', if_true, if_neg this]
      simp [ih]
  | @pair o v ws ht _ ih =>
    rw [takes_iff, Bool.and_eq_true] at ht
    simp only [sortLoop, ht.1, ht.2, if_true]
    simp [ih]

/-- The option blocks of a cut, followed by non-options, are sorted, provided the last lone option
does not meet a plain word it now takes: in that case it does take it, and the list is sorted all the same. -/
theorem sorted_blocks (ws : List Word) (bs : List Block) (hc : Cut ws bs) (rest : List Word)
    (hr : ∀ w ∈ rest, w.head? ≠ some '-') :
    Sorted (((bs.filter Block.isOption).map Block.words).flatten ++ rest) := by
  induction hc with
  | nil => exact .rest (by simpa using hr)
  | pair ht _ ih => simpa [List.filter_cons] using Sorted.pair ht ih
  | @one w ws bs hn hc ih =>
    by_cases hw : w.head? = some '-'
    · have e : ((List.filter Block.isOption (Block.word w :: bs)).map Block.words).flatten ++ rest =
          w :: (((bs.filter Block.isOption).map Block.words).flatten ++ rest) := by
        simp [Block.isOption, Block.words, hw]
      rw [e]
      generalize hL : ((bs.filter Block.isOption).map Block.words).flatten = L at *
      by_cases hL0 : L = []
      · subst hL0
        cases rest with
        | nil => exact .opt hw (by simp) ih
        | cons r rest =>
          by_cases ht : Takes w r
          · exact .pair ht (.rest fun x hx => hr x (by simp [hx]))
          · refine .opt hw (fun v hv => ?_) ih
            simp only [List.nil_append, List.head?_cons, Option.some.injEq] at hv
            exact hv ▸ ht
      · -- the first option word is an option, which cannot be taken as a value
        refine .opt hw (fun v hv ht => ?_) ih
        have hopt : L.head? = some v := by
          cases L with
          | nil => exact absurd rfl hL0
          | cons x xs => simpa using hv
        rw [← hL] at hopt
        obtain ⟨b, cs, hb⟩ : ∃ b cs, bs.filter Block.isOption = b :: cs := by
          cases hf : bs.filter Block.isOption with
          | nil => rw [hf] at hL; exact absurd hL.symm hL0
          | cons b cs => exact ⟨b, cs, rfl⟩
        have hbm : b ∈ bs.filter Block.isOption := by rw [hb]; simp
        have hbo : b.isOption = true := (List.mem_filter.1 hbm).2
        have hbb : b ∈ bs := (List.mem_filter.1 hbm).1
        rw [hb] at hopt
        cases b with
        | word u =>
          simp only [List.map_cons, Block.words, List.flatten_cons, List.cons_append, List.head?_cons,
            Option.some.injEq] at hopt
          subst hopt
          exact ht.2.2.1 (by simpa [Block.isOption] using hbo)
        | optVal o x =>
          simp only [List.map_cons, Block.words, List.flatten_cons, List.cons_append, List.head?_cons,
            Option.some.injEq] at hopt
          subst hopt
          have : ∀ (ws : List Word) (bs : List Block), Cut ws bs → ∀ o x, Block.optVal o x ∈ bs → Takes o x := by
            intro ws bs h
            induction h with
            | nil => simp
            | pair ht _ ih =>
              intro o x hm
              rcases List.mem_cons.1 hm with h | h
              · cases h; exact ht
              · exact ih o x h
            | one _ _ ih =>
              intro o x hm
              rcases List.mem_cons.1 hm with h | h
              · cases h
              · exact ih o x h
          exact ht.2.2.1 (this ws bs hc o x hbb).1
    · have e : ((List.filter Block.isOption (Block.word w :: bs)).map Block.words).flatten ++ rest =
          (((bs.filter Block.isOption).map Block.words).flatten ++ rest) := by
        simp [Block.isOption, hw]
      rw [e]
      exact ih

/-- **C07**: reordering twice is the same as reordering once. -/
theorem sort_args_idempotent (ws : List Word) : sortArgs (sortArgs ws) = sortArgs ws := by
  apply sortArgs_of_sorted
  obtain ⟨bs, hc, he⟩ := sort_args_moves_blocks ws
  rw [he]
  apply sorted_blocks ws bs hc
  intro w hw
  simp only [List.mem_flatten, List.mem_map, List.mem_filter] at hw
  obtain ⟨l, ⟨b, ⟨_, hb⟩, rfl⟩, hwl⟩ := hw
  cases b with
  | word u =>
    simp only [Block.words, List.mem_singleton] at hwl
    subst hwl
    simpa [Block.isOption] using hb
  | optVal o v => simp [Block.isOption] at hb

example : sortArgs ["a=1".toList, "-n".toList, "10".toList, "x".toList, "-t".toList, "b=2".toList] =
    ["-n".toList, "10".toList, "-t".toList, "a=1".toList, "x".toList, "b=2".toList] := by decide +kernel

/-! ### C58: aliases of the run-time options -/

/-- The options and the other names under which each may be given. -/
def optionNames : List (String × List String) :=
  [("seed", ["s"]), ("ncount", ["n"]), ("dir", ["out_dir", "d"]), ("trace", ["t"]), ("gravitation", ["g"]),
   ("bufsiz", []), ("format", [])]

theorem dictGet_insertBestOf (src snk : List (String × RVal)) (c : String) (as : List String) (k : String) :
    dictGet (insertBestOf src snk c as) k =
      if k = c then ((c :: as).findSome? (dictGet src)).or (dictGet snk k) else dictGet snk k := by
  unfold insertBestOf
  cases h : (c :: as).findSome? (dictGet src) with
  | none => simp
  | some v => 
    simp only [dictGet_dictSet]
    by_cases hk : c = k
    · simp [hk]
    · simp [hk, Ne.symm hk]

/-- **C58**: an option is set exactly if one of its names is given, to the value of the first such name,
and nothing else is set. -/
theorem runtime_options_spec (args : List (String × RVal)) :
    (∀ c as, (c, as) ∈ optionNames →
      dictGet (regularDict args) c = (c :: as).findSome? (dictGet args)) ∧
    (∀ k, k ∉ optionNames.map Prod.fst → dictGet (regularDict args) k = none) := by
  constructor
  · intro c as h
    simp only [optionNames, List.mem_cons, Prod.mk.injEq, List.not_mem_nil, or_false] at h
    rcases h with ⟨rfl, rfl⟩ | ⟨rfl, rfl⟩ | ⟨rfl, rfl⟩ | ⟨rfl, rfl⟩ | ⟨rfl, rfl⟩ | ⟨rfl, rfl⟩ | ⟨rfl, rfl⟩ <;>
      simp [regularDict, dictGet_insertBestOf, dictGet]
  · intro k h
    simp only [optionNames, List.map_cons, List.map_nil, List.mem_cons, List.not_mem_nil, or_false,
      not_or] at h
    obtain ⟨h1, h2, h3, h4, h5, h6, h7⟩ := h
    simp [regularDict, dictGet_insertBestOf, dictGet, *]

/-- The word with which an option is passed to the binary. -/
def optionWord (key : String) (v : RVal) : Option String :=
  if key = "trace" ∨ key = "gravitation" then
    if v.truthy then some ("--" ++ key) else none
  else if v = .none then none else some ("--" ++ key ++ "=" ++ v.str)

/-- **C58**: the binary is given exactly the words of the options which are set (in the order of the
table above, leaving aside the directory's place). -/
theorem runtime_args_spec (args : List (String × RVal)) :
    argsList args =
      (optionNames.map Prod.fst).filterMap (fun k => (dictGet args k).bind (optionWord k)) := by
  have hv : ∀ k, k ≠ "trace" → k ≠ "gravitation" →
      valueArg args k = ((dictGet args k).bind (optionWord k)).toList := by
    intro k h1 h2
    unfold valueArg optionWord
    rcases dictGet args k with _ | (_ | _ | _) <;> simp [h1, h2]
  have hf : ∀ k, k = "trace" ∨ k = "gravitation" →
      flagArg args k = ((dictGet args k).bind (optionWord k)).toList := by
    intro k h1
    unfold flagArg optionWord
    rcases dictGet args k with _ | v
    · simp
    · by_cases h : v.truthy <;> simp [h1, h]
  unfold argsList
  rw [hv "seed" (by decide) (by decide), hv "ncount" (by decide) (by decide), hv "dir" (by decide) (by decide),
    hf "trace" (by simp), hf "gravitation" (by simp), hv "bufsiz" (by decide) (by decide),
    hv "format" (by decide) (by decide)]
  simp only [optionNames, List.map_cons, List.map_nil]
  have key : ∀ (f : String → Option String) (a : String) (l : List String),
      (a :: l).filterMap f = (f a).toList ++ l.filterMap f := by
    intro f a l
    cases h : f a <;> simp [h]
  simp only [key, List.filterMap_nil, List.append_nil, List.append_assoc]

example : argsList (regularDict [("n", .text "1000"), ("s", .text "3"), ("t", .flag true), ("seed", .text "5")]) =
    ["--seed=5", "--ncount=1000", "--trace"] := by decide +kernel

/-! ### C06: running a scan -/

/-- The full claim: a scan over more than one point runs one command per row, and the command of a row sets
every parameter to the value it has in that row. -/
def RunsEachPoint (names : List String) (rows : List (List Val)) (cs : List Command) : Prop :=
  cs.length = rows.length ∧
  ∀ (i : Nat) (row : List Val) (c : Command), rows[i]? = some row → cs[i]? = some c →
    c.settings = (names.zip row).map fun p => (p.1, Shown.value p.2)

/-- **C06** fails: every point of a scan is run with the text of the whole range. -/
theorem scan_points_not_run_with_own_values :
    ∃ (ps : List (String × Src)) (rows : List (List Val)) (cs : List Command),
      (parametersToScan id 10 ps false).toOption.bind Plan.rows = some rows ∧
      (runScan id 10 ps false ["out"] []).toOption.join = some cs ∧
      rows = [[.num 1], [.num 2]] ∧ cs.length = 2 ∧
      (∀ c ∈ cs, c.settings = [("a", .range 1 1 2)]) ∧ ¬ RunsEachPoint ["a"] rows cs := by
  refine ⟨[("a", .range ⟨1, 2, 1⟩)], [[.num 1], [.num 2]], _, by decide +kernel,
    (by decide +kernel : _ = some [⟨["out", "0"], [], [("a", .range 1 1 2)]⟩, ⟨["out", "1"], [], [("a", .range 1 1 2)]⟩]),
    rfl, rfl, by decide +kernel, ?_⟩
  rintro ⟨_, h⟩
  have := h 0 [.num 1] _ rfl rfl
  revert this
  decide +kernel

/-- **C58** for scans fails: an alias which is honoured in a single run is dropped at the points of a scan. -/
theorem scan_drops_aliases :
    ∃ (one many : List (String × Src)) (c : Command) (cs : List Command),
      (runScan id 10 one false ["out"] [("n", .text "7")]).toOption.join = some [c] ∧
      c.options = ["--ncount=7"] ∧
      (runScan id 10 many false ["out"] [("n", .text "7")]).toOption.join = some cs ∧ cs ≠ [] ∧
      ∀ c ∈ cs, c.options = [] :=
  ⟨[("a", .singular (.num 1) (some 1))], [("a", .range ⟨1, 2, 1⟩)],
    ⟨["out"], ["--ncount=7"], [("a", .value (.num 1))]⟩,
    [⟨["out", "0"], [], [("a", .range 1 1 2)]⟩, ⟨["out", "1"], [], [("a", .range 1 1 2)]⟩],
    by decide +kernel, rfl, by decide +kernel, by decide, by decide +kernel⟩

/-- **C06** (partial: the settings of each run are wrong, see above): one run per row of the scan, the
`i`-th in its own numbered directory, no two runs in the same directory, and every run with the same options. -/
theorem scan_runs_once_per_point_partial (lower : String → String) (fuel : Nat) (ps : List (String × Src))
    (grid : Bool) (dir : List String) (rArgs : List (String × RVal)) (plan : Plan) (rows : List (List Val))
    (hp : parametersToScan lower fuel ps grid = .ok plan) (hn : 1 < plan.n) (hr : plan.rows = some rows) :
    ∃ cs, runScan lower fuel ps grid dir rArgs = .ok (some cs) ∧ cs.length = rows.length ∧
      (∀ (i : Nat) (c : Command), cs[i]? = some c → c.dir = dir ++ [String.ofList (decimal i)]) ∧
      (∀ (i j : Nat) (c d : Command), cs[i]? = some c → cs[j]? = some d → c.dir = d.dir → i = j) ∧
      (∀ c ∈ cs, c.options = argsList rArgs) := by
  have hdir : ∀ (i : Nat) (c : Command), (scanCommands rows ps dir rArgs)[i]? = some c →
      c.dir = dir ++ [String.ofList (decimal i)] := by
    intro i c hc
    unfold scanCommands at hc
    rw [List.getElem?_map, Option.map_eq_some_iff] at hc
    obtain ⟨p, hp, rfl⟩ := hc
    rw [List.getElem?_zipIdx, Option.map_eq_some_iff] at hp
    obtain ⟨a, _, rfl⟩ := hp
    simp
  refine ⟨scanCommands rows ps dir rArgs, ?_, by simp [scanCommands], hdir, ?_, ?_⟩
  · simp only [runScan, hp, bind, Except.bind, hn, if_true, hr, Option.map_some]
  · intro i j c d hc hd h
    rw [hdir i c hc, hdir j d hd] at h
    have h := List.append_cancel_left h
    simp only [List.cons.injEq, and_true] at h
    exact decimal_injective i j (String.ofList_injective h)
  · intro c hc
    unfold scanCommands at hc
    rw [List.mem_map] at hc
    obtain ⟨p, _, rfl⟩ := hc
    rfl

/-- **C06**, single runs: when there is at most one point, there is one run, in the given directory, which
sets every parameter given as a single value to that value. -/
theorem single_run_uses_values (lower : String → String) (fuel : Nat) (ps : List (String × Src))
    (grid : Bool) (dir : List String) (rArgs : List (String × RVal)) (plan : Plan)
    (hp : parametersToScan lower fuel ps grid = .ok plan) (hn : plan.n ≤ 1)
    (hs : ∀ p ∈ ps, ∃ v m, p.2 = .singular v m) :
    ∃ c, runScan lower fuel ps grid dir rArgs = .ok (some [c]) ∧ c.dir = dir ∧
      ∀ name shown, (name, shown) ∈ c.settings ↔
        ∃ v m, (name, Src.singular v m) ∈ ps ∧ shown = Shown.value v := by
  refine ⟨{ dir := dir, options := argsList (regularDict rArgs),
            settings := ps.map fun q => (q.1, showSrc q.2) }, ?_, rfl, ?_⟩
  · simp only [runScan, hp, bind, Except.bind, gt_iff_lt, if_neg (Nat.not_lt.2 hn)]
  · intro name shown
    simp only [List.mem_map, Prod.mk.injEq]
    constructor
    · rintro ⟨p, hp, rfl, rfl⟩
      obtain ⟨v, m, h⟩ := hs p hp
      refine ⟨v, m, ?_, by rw [h]; rfl⟩
      rw [← h]; exact hp
    · rintro ⟨v, m, h, rfl⟩
      exact ⟨_, h, rfl, rfl⟩

example : ∃ plan, parametersToScan id 10 [("a", .range ⟨1, 3, 1⟩), ("b", .singular (.num 5) none)] true = .ok plan ∧
    1 < plan.n ∧ plan.rows = some [[.num 1, .num 5], [.num 2, .num 5], [.num 3, .num 5]] :=
  ⟨⟨3, ["a", "b"], some [[.num 1, .num 5], [.num 2, .num 5], [.num 3, .num 5]]⟩, by decide +kernel, by decide, rfl⟩

end Verif.Runner
