import Verif.InstrText.Param

/-!
C84: the text of a whole instrument, how it is printed (`Instr.to_file`, src/mccode_antlr/instr/instr.py 36-76) and read
(`instrument_definition`, src/grammar/McInstr.g4 18-26, src/mccode_antlr/instr/visitor.py 27-53 and 287-306).

Not modelled: SHELL and SEARCH, which are read but not kept; `%include`; DECLARE COPY and the like, which raise; the source of
metadata; files and line numbers of blocks; the groups, which are made from the components; the registries.
-/

namespace Verif.InstrText

open Verif.Loader (Text t)

/-- `Instr` (instr.py 20-34); blocks are given by their texts. `comment` is what follows the name in the comment at the top: the
source, the included files and the registries (instr.py 42-48); not modelled is one that opens a comment again. -/
structure Instrument (E V P : Type) where
  name : Text
  comment : Text := []
  pars : List (Par E) := []
  metas : List Meta := []
  flags : List Text := []
  declare : List Text := []
  user : List Text := []
  init : List Text := []
  comps : List (Instance E V P) := []
  save : List Text := []
  final : List Text := []
  deriving DecidableEq, Repr

/-- `', '.join` of the parameters (instr.py 51). -/
def printPars {E V P : Type} (constant : E → Bool) : List (Par E) → List (Tok E V P)
  | [] => []
  | [p] => printPar constant p
  | p :: ps => printPar constant p ++ .comma :: printPars constant ps

/-- `item or 'None'` (textwrap.py 142). -/
def orNone (s : Text) : Text := if s = [] then t "None" else s

/-- `' '.join`. -/
def joinBlanks : List Text → Text
  | [] => []
  | [s] => s
  | s :: l => s ++ t " " ++ joinBlanks l

/-- `quoted_line('DEPENDENCY ', flags)` (instr.py 57-58, textwrap.py 141-143). -/
def printFlags {E V P : Type} (fs : List Text) : List (Tok E V P) :=
  if fs = [] then [] else [.kw .dependency, lexText (quote (joinBlanks (fs.map orNone)))]

/-- `block(name, _join_rawc_tuple(blocks))` (instr.py 60-75 and 505-506, textwrap.py 134-135). -/
def printBlocks {E V P : Type} (k : Kw) (bs : List Text) : List (Tok E V P) :=
  if bs = [] then [] else [.kw k, lexBlock (t "\n\n" ++ joinBlocks bs ++ t "\n")]

/-- The comment at the top: nothing is left of it, except if it ends too early. -/
def printComment {E V P : Type} (c : Text) : List (Tok E V P) := if t "*/" <:+: c then [.junk] else []

/-- `Instr.to_file` (instr.py 36-76). -/
def printInstrument {E V P : Type} [Triple V] (constant : E → Bool) (i : Instrument E V P) : List (Tok E V P) :=
  printComment i.comment ++ [.kw .define, .kw .instrument, lexWord i.name, .lpar] ++ printPars constant i.pars ++ [.rpar] ++
    (i.metas.map printMeta).flatten ++ printFlags i.flags ++ printBlocks .declare i.declare ++ printBlocks .uservars i.user ++
    printBlocks .initial i.init ++ [.kw .trace] ++ printTrace i.comps ++ printBlocks .save i.save ++
    printBlocks .final i.final ++ [.kw .ending]

/-- An instrument as it is read. -/
structure ReadInstrument (E V P : Type) where
  name : Text
  pars : List (Par E)
  metas : List Meta
  flags : List Text
  declare : List Text
  user : List Text
  init : List Text
  comps : List (ReadInstance E V P)
  save : List Text
  final : List Text
  deriving DecidableEq, Repr

/-- The parameters up to the closing parenthesis (McInstr.g4 38), at most `n`; those read so far are `acc`. -/
def readParsGo {E V P : Type} : Nat → List (Par E) → List (Tok E V P) → Except Err (List (Par E) × List (Tok E V P))
  | 0, _, _ => .error .syntaxError
  | n + 1, acc, l =>
    match readPar l with
    | .error e => .error e
    | .ok (p, .comma :: l) => readParsGo n (acc ++ [p]) l
    | .ok (p, .rpar :: l) => .ok (acc ++ [p], l)
    | .ok _ => .error .syntaxError

/-- `instrument_parameters` (McInstr.g4 38, visitor.py 37-43) and `Instr.add_parameter` (instr.py 124-128). -/
def readPars {E V P : Type} : List (Tok E V P) → Except Err (List (Par E) × List (Tok E V P))
  | .lpar :: .rpar :: l => .ok ([], l)
  | .lpar :: l =>
    match readParsGo l.length [] l with
    | .error e => .error e
    | .ok (ps, l) => if (ps.map (·.name)).Nodup then .ok (ps, l) else .error .runtimeError
  | _ => .error .syntaxError

/-- `dependency?` (McCommon.g4 10, visitor.py 287-289). -/
def readFlags {E V P : Type} : List (Tok E V P) → Except Err (List Text × List (Tok E V P))
  | .kw .dependency :: .str s :: l => .ok ([s], l)
  | .kw .dependency :: _ => .error .syntaxError
  | l => .ok ([], l)

/-- `declare?` and the like (McCommon.g4 12-29, visitor.py 291-304) with `blocks_to_raw_c` (block.py 49-53). -/
def readBlock {E V P : Type} (k : Kw) (l : List (Tok E V P)) : Except Err (List Text × List (Tok E V P)) :=
  match l with
  | .kw k' :: l' =>
    if k' = k then
      match l' with
      | .block b :: l => .ok (if blank b then [] else [b], l)
      | _ => .error .syntaxError
    else .ok ([], l)
  | _ => .ok ([], l)

section
variable {E V P : Type} [DecidableEq E] [DecidableEq V] [DecidableEq P] [Triple V]

/-- `save? finally_? End EOF`. -/
def readEnd (l : List (Tok E V P)) : Except Err (List Text × List Text) :=
  match readBlock .save l with
  | .error e => .error e
  | .ok (s, l) =>
    match readBlock .final l with
    | .error e => .error e
    | .ok (f, l) => if l = [.kw .ending] then .ok (s, f) else .error .syntaxError

/-- `instrument_trace save? finally_? End EOF`. -/
def readBody (r : Reader E) (ten : E) : List (Tok E V P) → Except Err (List (ReadInstance E V P) × List Text × List Text)
  | .kw .trace :: l =>
    match readTrace r ten (l.length + 1) [] l with
    | .error e => .error e
    | .ok (cs, l) =>
      match readEnd l with
      | .error e => .error e
      | .ok sf => .ok (cs, sf)
  | _ => .error .syntaxError

/-- `declare? uservars? initialise?` -/
def readDecls (l : List (Tok E V P)) : Except Err ((List Text × List Text × List Text) × List (Tok E V P)) :=
  match readBlock .declare l with
  | .error e => .error e
  | .ok (d, l) =>
    match readBlock .uservars l with
    | .error e => .error e
    | .ok (u, l) =>
      match readBlock .initial l with
      | .error e => .error e
      | .ok (i, l) => .ok ((d, u, i), l)

/-- `instrument_parameters instrument_metadata? dependency?`. -/
def readHead (l : List (Tok E V P)) : Except Err ((List (Par E) × List Meta × List Text) × List (Tok E V P)) :=
  match readPars l with
  | .error e => .error e
  | .ok (ps, l) =>
    match readMetas l.length [] l with
    | .error e => .error e
    | .ok (ms, l) =>
      match readFlags l with
      | .error e => .error e
      | .ok (fs, l) => .ok ((ps, ms, fs), l)

/-- `prog` (McInstr.g4 18-26) and its visitor (visitor.py 27-53). -/
def readInstrument (r : Reader E) (ten : E) : List (Tok E V P) → Except Err (ReadInstrument E V P)
  | .kw .define :: .kw .instrument :: .word n :: l =>
    match readHead l with
    | .error e => .error e
    | .ok (h, l) =>
      match readDecls l with
      | .error e => .error e
      | .ok (d, l) =>
        match readBody r ten l with
        | .error e => .error e
        | .ok b => .ok ⟨n, h.1, h.2.1, h.2.2, d.1, d.2.1, d.2.2, b.1, b.2.1, b.2.2⟩
  | _ => .error .syntaxError

/-! ### Reading a printed instrument -/

/-- What is asked of a parameter: see `parameter_again_iff`. -/
structure Par.Readable (constant : E → Bool) (p : Par E) : Prop where
  name : ∀ k ∈ keywords, k.1 ≠ p.name
  unit : ∀ u, p.unit = some u → IsLiteral u
  number : ∀ b x, p.value = .number b (some x) → constant x = true
  text : ∀ x, p.value = .text (some x) → IsLiteral x ∨ x = t "NULL"
  vector : ∀ x, p.value ≠ .vector x

/-- Blocks whose text can be put in one block which is not blank. -/
def Blocks.Readable (bs : List Text) : Prop :=
  bs ≠ [] → ¬ t "%}" <:+: t "\n\n" ++ joinBlocks bs ++ t "\n" ∧ blank (joinBlocks bs) = false

omit [DecidableEq E] [DecidableEq V] [DecidableEq P] [Triple V] in
theorem par_again {constant : E → Bool} {p : Par E} (h : p.Readable constant) (l : List (Tok E V P))
    (hl : l.head? = some .comma ∨ l.head? = some .rpar) : readPar (printPar constant p ++ l) = .ok (p, l) := by
  refine (parameter_again_iff constant p h.name l hl).mpr ⟨h.unit, ?_⟩
  cases hv : p.value with
  | number b e =>
    rintro x rfl
    exact h.number b x hv
  | text s =>
    rintro x rfl
    exact h.text x hv
  | vector e => exact absurd hv (h.vector e)

omit [DecidableEq E] [DecidableEq V] [DecidableEq P] [Triple V] in
theorem printPars_length (constant : E → Bool) : ∀ ps : List (Par E),
    ps.length ≤ (printPars constant ps : List (Tok E V P)).length
  | [] => by simp
  | [p] => by
    simp only [printPars, printPar, List.length_append, List.length_cons, List.length_nil]
    omega
  | p :: q :: ps => by
    have := printPars_length constant (q :: ps)
    simp only [printPars, List.length_append, List.length_cons] at this ⊢
    omega

omit [DecidableEq E] [DecidableEq V] [DecidableEq P] [Triple V] in
theorem parsGo_again (constant : E → Bool) (l : List (Tok E V P)) : ∀ (ps acc : List (Par E)) (n : Nat), ps ≠ [] →
    (∀ p ∈ ps, p.Readable constant) → ps.length ≤ n →
    readParsGo n acc (printPars constant ps ++ .rpar :: l) = .ok (acc ++ ps, l)
  | [], _, _, h, _, _ => absurd rfl h
  | [p], acc, n, _, h, hn => by
    obtain ⟨n, rfl⟩ : ∃ k, n = k + 1 := ⟨n - 1, by simp at hn; omega⟩
    rw [printPars, readParsGo, par_again (h p (by simp)) _ (.inr rfl)]
  | p :: q :: ps, acc, n, _, h, hn => by
    obtain ⟨n, rfl⟩ : ∃ k, n = k + 1 := ⟨n - 1, by simp at hn; omega⟩
    rw [printPars, List.append_assoc, readParsGo, List.cons_append, par_again (h p (by simp)) _ (.inl rfl)]
    · simp only
      rw [parsGo_again constant l (q :: ps) _ n (by simp) (fun x hx => h x (List.mem_cons_of_mem _ hx))
        (by simp at hn ⊢; omega)]
      simp
    · simp

omit [DecidableEq E] [DecidableEq V] [DecidableEq P] [Triple V] in
theorem printPars_head (constant : E → Bool) (p : Par E) (ps : List (Par E)) (l : List (Tok E V P)) :
    (printPars constant (p :: ps) ++ l).head? ≠ some .rpar := by
  have h1 : ∀ l : List (Tok E V P), (printPar constant p ++ l).head? ≠ some .rpar := by
    intro l
    have hw : ∀ s : Text, (lexWord s : Tok E V P) ≠ .rpar := by
      intro s
      rw [lexWord]
      split <;> simp
    simp only [printPar]
    cases p.value with
    | number b e => cases b <;> simp [printType, hw]
    | text s => simp [printType]
    | vector e => simp [printType, hw]
  cases ps with
  | nil => exact h1 l
  | cons q ps =>
    rw [printPars, List.append_assoc]
    · exact h1 _
    · simp

omit [DecidableEq E] [DecidableEq V] [DecidableEq P] [Triple V] in
theorem pars_again (constant : E → Bool) (l : List (Tok E V P)) (ps : List (Par E)) (h : ∀ p ∈ ps, p.Readable constant)
    (hd : (ps.map (·.name)).Nodup) : readPars (.lpar :: (printPars constant ps ++ .rpar :: l)) = .ok (ps, l) := by
  cases ps with
  | nil => rfl
  | cons p ps =>
    have hh := printPars_head constant p ps (.rpar :: l : List (Tok E V P))
    have hlen := printPars_length (V := V) (P := P) constant (p :: ps)
    have := parsGo_again constant l (p :: ps) [] (printPars constant (p :: ps) ++ .rpar :: l : List (Tok E V P)).length
      (by simp) h (by simp only [List.length_append, List.length_cons] at hlen ⊢; omega)
    generalize (printPars constant (p :: ps) ++ .rpar :: l : List (Tok E V P)) = x at hh this
    unfold readPars
    split
    · rename_i he
      simp only [List.cons.injEq, true_and] at he
      rw [he] at hh
      exact absurd rfl hh
    · rename_i he
      simp only [List.cons.injEq, true_and] at he
      rw [← he, this]
      simp only [List.nil_append]
      rw [if_pos hd]
    · rename_i h1
      exact absurd rfl (h1 x)

omit [DecidableEq E] [DecidableEq V] [DecidableEq P] [Triple V] in
theorem flags_again (fs : List Text) (h : fs ≠ [] → IsLiteral (quote (joinBlanks (fs.map orNone)))) (l : List (Tok E V P))
    (hl : l.head? ≠ some (.kw .dependency)) :
    readFlags (printFlags fs ++ l) = .ok (if fs = [] then [] else [joinBlanks (fs.map orNone)], l) := by
  rw [printFlags]
  split_ifs with hf
  · simp only [List.nil_append]
    unfold readFlags
    split <;> first | rfl | exact absurd rfl hl
  · obtain ⟨i, hi, h1, h2⟩ := (isLiteral_iff _).mp (h hf)
    have hi' : joinBlanks (fs.map orNone) = i := by
      have := congrArg (fun s : Text => s.tail.dropLast) hi
      simp only [tail_quote] at this
      rw [this]
      exact tail_quote i
    rw [hi', lexText_literal i h1 h2]
    rfl

omit [DecidableEq E] [DecidableEq V] [DecidableEq P] [Triple V] in
theorem block_again (k : Kw) (bs : List Text) (h : Blocks.Readable bs) (l : List (Tok E V P)) (hl : l.head? ≠ some (.kw k)) :
    readBlock k (printBlocks k bs ++ l) = .ok (if bs = [] then [] else [t "\n\n" ++ joinBlocks bs ++ t "\n"], l) := by
  rw [printBlocks]
  split_ifs with hb
  · simp only [List.nil_append]
    cases l with
    | nil => rfl
    | cons x l =>
      cases x with
      | kw k' =>
        have : k' ≠ k := by
          rintro rfl
          exact hl rfl
        simp only [readBlock, if_neg this]
      | _ => rfl
  · obtain ⟨h1, h2⟩ := h hb
    have hbl : blank (t "\n\n" ++ joinBlocks bs ++ t "\n") = false := by
      rw [blank, List.all_append, List.all_append, ← blank, ← blank, h2]
      simp
    rw [lexBlock, if_neg h1]
    simp only [List.cons_append, List.nil_append, readBlock, if_true, hbl, Bool.false_eq_true, if_false]

omit [DecidableEq E] [DecidableEq V] [DecidableEq P] [Triple V] in
theorem printBlocks_head (k k' : Kw) (bs : List Text) (l : List (Tok E V P)) (hk : k' ≠ k) (hl : l.head? ≠ some (.kw k')) :
    (printBlocks k bs ++ l).head? ≠ some (.kw k') := by
  rw [printBlocks]
  split_ifs
  · exact hl
  · simp only [List.cons_append, List.head?_cons, ne_eq, Option.some.injEq, Tok.kw.injEq]
    exact fun h => hk h.symm

omit [DecidableEq E] [DecidableEq V] [DecidableEq P] [Triple V] in
theorem printFlags_head (k' : Kw) (fs : List Text) (l : List (Tok E V P)) (hk : k' ≠ .dependency)
    (hl : l.head? ≠ some (.kw k')) : (printFlags fs ++ l).head? ≠ some (.kw k') := by
  rw [printFlags]
  split_ifs
  · exact hl
  · simp only [List.cons_append, List.head?_cons, ne_eq, Option.some.injEq, Tok.kw.injEq]
    exact fun h => hk h.symm

omit [DecidableEq E] [DecidableEq V] [DecidableEq P] in
theorem printTrace_length (is : List (Instance E V P)) : is.length ≤ (printTrace is).length := by
  rw [printTrace]
  generalize is.map (·.name) = names
  induction is with
  | nil => simp
  | cons i is ih =>
    obtain ⟨k, l, -, hl⟩ := printInstance_head names i
    simp only [List.map_cons, List.flatten_cons, List.length_append, hl, List.length_cons] at ih ⊢
    omega

theorem joinBlanks_eq : ∀ l : List Text, joinBlanks l = [' '].intercalate l
  | [] => rfl
  | [s] => by simp [joinBlanks, List.intercalate]
  | s :: q :: l => by
    rw [joinBlanks, joinBlanks_eq (q :: l)]
    · simp [List.intercalate, t]
    · simp

/-- What is asked of an instrument. -/
structure Instrument.Readable (r : Reader E) (i : Instrument E V P) : Prop where
  name : ∀ k ∈ keywords, k.1 ≠ i.name
  comment : ¬ t "*/" <:+: i.comment
  pars : ∀ p ∈ i.pars, p.Readable r.constant
  parNames : (i.pars.map (·.name)).Nodup
  metas : ∀ m ∈ i.metas, m.Readable
  metaNames : (i.metas.map (·.name)).Nodup
  flags : i.flags ≠ [] → IsLiteral ('"' :: [' '].intercalate (i.flags.map fun f => if f = [] then t "None" else f) ++ ['"'])
  declare : Blocks.Readable i.declare
  user : Blocks.Readable i.user
  init : Blocks.Readable i.init
  save : Blocks.Readable i.save
  final : Blocks.Readable i.final
  compNames : (i.comps.map (·.name)).Nodup
  comps : ∀ a c b, i.comps = a ++ c :: b → c.Readable r a.length

/-- C84: a printed instrument is read as the same instrument, for those which can be read, except that the flags become one, that
the blocks of each section become one with line ends around it, and what `trace_again_partial` says of the components. -/
theorem instrument_again_partial (r : Reader E) (ten : E) (i : Instrument E V P) (h : i.Readable r) :
    readInstrument r ten (printInstrument r.constant i) = .ok
      { name := i.name
        pars := i.pars
        metas := i.metas.map fun m => ⟨m.name, m.mimetype, t "\n" ++ m.value ++ t "\n"⟩
        flags := if i.flags = [] then [] else [[' '].intercalate (i.flags.map fun f => if f = [] then t "None" else f)]
        declare := if i.declare = [] then [] else [t "\n\n" ++ ['\n'].intercalate i.declare ++ t "\n"]
        user := if i.user = [] then [] else [t "\n\n" ++ ['\n'].intercalate i.user ++ t "\n"]
        init := if i.init = [] then [] else [t "\n\n" ++ ['\n'].intercalate i.init ++ t "\n"]
        comps := i.comps.map fun c => ⟨c.name, c.type, c.params,
          ⟨c.place.at_, c.place.atRef.map .own, c.place.rot, c.place.rotRef.map .own⟩, false, c.cpu, none, c.when, c.group,
          if c.extend = [] then [] else [t "\n\n" ++ ['\n'].intercalate c.extend ++ t "\n"], c.jumps,
          c.metas.map fun m => ⟨m.name, m.mimetype, t "\n" ++ m.value ++ t "\n"⟩⟩
        save := if i.save = [] then [] else [t "\n\n" ++ ['\n'].intercalate i.save ++ t "\n"]
        final := if i.final = [] then [] else [t "\n\n" ++ ['\n'].intercalate i.final ++ t "\n"] } := by
  simp only [← joinBlocks_eq, ← joinBlanks_eq]
  -- the parts of the text, from the end
  let l1 : List (Tok E V P) := printBlocks .save i.save ++ (printBlocks .final i.final ++ [.kw .ending])
  let l2 : List (Tok E V P) := .kw .trace :: (printTrace i.comps ++ l1)
  let l3 : List (Tok E V P) := printBlocks .declare i.declare ++ (printBlocks .uservars i.user ++ (printBlocks .initial i.init ++ l2))
  let l4 : List (Tok E V P) := (i.metas.map printMeta).flatten ++ (printFlags i.flags ++ l3)
  have hprint : printInstrument r.constant i =
      .kw .define :: .kw .instrument :: .word i.name :: .lpar :: (printPars r.constant i.pars ++ .rpar :: l4) := by
    have hw : (lexWord i.name : Tok E V P) = .word i.name := lexWord_plain h.name
    simp only [printInstrument, printComment, if_neg h.comment, hw, l1, l2, l3, l4, List.append_assoc, List.cons_append,
      List.nil_append]
  have hend : readEnd l1 = .ok (if i.save = [] then [] else [t "\n\n" ++ joinBlocks i.save ++ t "\n"],
      if i.final = [] then [] else [t "\n\n" ++ joinBlocks i.final ++ t "\n"]) := by
    simp only [readEnd, l1]
    rw [block_again .save _ h.save _ (printBlocks_head _ _ _ _ (by decide) (by simp))]
    simp only
    rw [block_again .final _ h.final _ (by simp)]
    simp
  have hl1 : ∀ k, l1.head? = some (.kw k) → k ∉ startOrPart := by
    intro k hk hm
    refine printBlocks_head (E := E) (V := V) (P := P) .save k i.save _ ?_ (printBlocks_head .final k i.final _ ?_ ?_) hk
    · rintro rfl; simp [startOrPart] at hm
    · rintro rfl; simp [startOrPart] at hm
    · simp only [List.head?_cons, ne_eq, Option.some.injEq, Tok.kw.injEq]
      rintro rfl
      simp [startOrPart] at hm
  have hp : ∀ n ∈ i.comps.map (·.name), Plain n := by
    intro n hn
    obtain ⟨c, hc, rfl⟩ := List.mem_map.mp hn
    obtain ⟨a, b, hab⟩ := List.append_of_mem hc
    exact (h.comps a c b hab).name
  have htrace := trace_again_aux r ten l1 hl1 (i.comps.map (·.name)) h.compNames hp i.comps []
    ((printTrace i.comps ++ l1).length + 1) (by simp) (by simpa using h.comps)
    (by have := printTrace_length i.comps; rw [List.length_append]; omega)
  have hbody : readBody r ten l2 = .ok (i.comps.map Instance.read,
      if i.save = [] then [] else [t "\n\n" ++ joinBlocks i.save ++ t "\n"],
      if i.final = [] then [] else [t "\n\n" ++ joinBlocks i.final ++ t "\n"]) := by
    simp only [List.map_nil, List.nil_append] at htrace
    simp only [readBody, l2]
    rw [show readTrace r ten ((printTrace i.comps ++ l1).length + 1) [] (printTrace i.comps ++ l1) = _ from htrace]
    simp only
    rw [hend]
  have hdecls : readDecls l3 = .ok ((if i.declare = [] then [] else [t "\n\n" ++ joinBlocks i.declare ++ t "\n"],
      if i.user = [] then [] else [t "\n\n" ++ joinBlocks i.user ++ t "\n"],
      if i.init = [] then [] else [t "\n\n" ++ joinBlocks i.init ++ t "\n"]), l2) := by
    simp only [readDecls, l3]
    rw [block_again .declare _ h.declare _ (printBlocks_head _ _ _ _ (by decide) (printBlocks_head _ _ _ _ (by decide)
      (by simp [l2])))]
    simp only
    rw [block_again .uservars _ h.user _ (printBlocks_head _ _ _ _ (by decide) (by simp [l2]))]
    simp only
    rw [block_again .initial _ h.init _ (by simp [l2])]
  have hl3 : ∀ k, k ∈ [Kw.metadata, .dependency] → l3.head? ≠ some (.kw k) := by
    intro k hk
    refine printBlocks_head _ _ _ _ ?_ (printBlocks_head _ _ _ _ ?_ (printBlocks_head _ _ _ _ ?_ ?_))
    · rintro rfl; simp at hk
    · rintro rfl; simp at hk
    · rintro rfl; simp at hk
    · simp only [l2, List.head?_cons, ne_eq, Option.some.injEq, Tok.kw.injEq]
      rintro rfl
      simp at hk
  have hhead : readHead (.lpar :: (printPars r.constant i.pars ++ .rpar :: l4)) =
      .ok ((i.pars, i.metas.map Meta.padded, if i.flags = [] then [] else [joinBlanks (i.flags.map orNone)]), l3) := by
    rw [readHead, pars_again r.constant l4 i.pars h.pars h.parNames]
    simp only
    rw [metas_again (printFlags i.flags ++ l3) (printFlags_head _ _ _ (by decide) (hl3 _ (by simp))) i.metas []
      l4.length h.metas (by simpa using h.metaNames) (length_flatten_metas _ _)]
    simp only [List.nil_append]
    rw [flags_again i.flags (by rw [joinBlanks_eq]; exact h.flags) l3 (hl3 _ (by simp))]
  rw [hprint, readInstrument, hhead]
  simp only
  rw [hdecls]
  simp only
  rw [hbody]
  simp only [Except.ok.injEq, ReadInstrument.mk.injEq, true_and, and_true]
  refine ⟨rfl, rfl, ?_⟩
  apply List.map_congr_left
  intro c hc
  obtain ⟨a, b, hab⟩ := List.append_of_mem hc
  have hr := h.comps a c b hab
  rw [Instance.read, hr.split, hr.removable, joinBlocks_eq]

end

/-- An instrument with something in each part. -/
def sampleInstrument : Instrument Nat Nat Nat where
  name := t "diffractometer"
  comment := t "Source: file.instr"
  pars := [⟨t "length", some (t "\"m\""), .number false (some 3)⟩, ⟨t "file", none, .text none⟩]
  metas := [⟨t "note", t "text/plain", t "a note"⟩]
  flags := [t "-lgsl"]
  declare := [t "double x;", t "double y;"]
  init := [t "x = 1;"]
  comps := [⟨t "a", t "Arm", 3, ⟨1, none, 0, none⟩, false, false, none, none, none, [], [], []⟩]
  save := [t "y = x;"]

theorem sampleInstrument_readable : sampleInstrument.Readable sampleReader where
  name := by decide +kernel
  comment := by decide +kernel
  pars := by
    intro p hp
    simp only [sampleInstrument, List.mem_cons, List.not_mem_nil, or_false] at hp
    rcases hp with rfl | rfl
    · refine ⟨by decide +kernel, ?_, ?_, by simp, by simp⟩
      · intro u hu
        cases hu
        exact ⟨['m'], rfl, .char (by decide) .nil, by decide⟩
      · intro b x hx
        cases hx
        decide
    · exact ⟨by decide +kernel, by simp, by simp, by simp, by simp⟩
  parNames := by decide
  metas := by
    intro m hm
    simp only [sampleInstrument, List.mem_cons, List.not_mem_nil, or_false] at hm
    subst hm
    exact ⟨by decide, by decide +kernel, .inl ⟨by decide, by decide, by decide, by
      show ∀ k ∈ keywords, k.1 ≠ _
      decide +kernel⟩⟩
  metaNames := by decide
  flags := fun _ => ⟨t "-lgsl", by decide, (schars_iff _).mp (by decide), by decide⟩
  declare := fun _ => by decide +kernel
  user := fun h => absurd rfl h
  init := fun _ => by decide +kernel
  save := fun _ => by decide +kernel
  final := fun h => absurd rfl h
  compNames := by decide
  comps := by
    intro a c b hab
    simp only [sampleInstrument] at hab
    rcases a with _ | ⟨x, a⟩
    · simp only [List.nil_append, List.cons.injEq] at hab
      obtain ⟨rfl, rfl⟩ := hab
      exact ⟨by decide +kernel, by decide +kernel, by decide, by decide, by simp, by simp, by simp, by simp, by simp,
        .inr (.inr ⟨rfl, rfl⟩), by simp, by simp, by simp, rfl, rfl⟩
    · simp at hab

example : ∃ q, readInstrument sampleReader 10 (printInstrument sampleReader.constant sampleInstrument) = .ok q ∧
    q.pars = sampleInstrument.pars ∧ q.flags = [t "-lgsl"] ∧ q.declare = [t "\n\ndouble x;\ndouble y;\n"] :=
  ⟨_, instrument_again_partial sampleReader 10 sampleInstrument sampleInstrument_readable, rfl, rfl, rfl⟩

section
variable {E V P : Type} [DecidableEq E] [DecidableEq V] [DecidableEq P] [Triple V]

/-- C84, negation: with two flags or more, other flags are read: one. -/
theorem flags_not_same (r : Reader E) (ten : E) (i : Instrument E V P) (h : i.Readable r) (h2 : 2 ≤ i.flags.length) :
    ∃ q, readInstrument r ten (printInstrument r.constant i) = .ok q ∧ q.flags.length = 1 ∧ q.flags ≠ i.flags := by
  refine ⟨_, instrument_again_partial r ten i h, ?_, ?_⟩
  · have : i.flags ≠ [] := by rintro he; simp [he] at h2
    simp [this]
  · intro he
    have hne : i.flags ≠ [] := by rintro he; simp [he] at h2
    simp only [if_neg hne] at he
    rw [← he] at h2
    simp at h2

/-- C84, negation: an empty flag is read as `None`. -/
theorem empty_flag (r : Reader E) (ten : E) (i : Instrument E V P) (h : i.Readable r) (h1 : i.flags = [[]]) :
    ∃ q, readInstrument r ten (printInstrument r.constant i) = .ok q ∧ q.flags = [t "None"] := by
  refine ⟨_, instrument_again_partial r ten i h, ?_⟩
  simp [h1, orNone, joinBlanks]

/-- C84, negation: a section with code is never read as the same: the text read is longer by three line ends than all that was
there with a line end between the blocks. -/
theorem declare_not_same (r : Reader E) (ten : E) (i : Instrument E V P) (h : i.Readable r) (h1 : i.declare ≠ []) :
    ∃ q s, readInstrument r ten (printInstrument r.constant i) = .ok q ∧ q.declare = [s] ∧ q.declare ≠ i.declare ∧
      s.length = (i.declare.map (·.length)).sum + (i.declare.length - 1) + 3 := by
  have hlen : ∀ bs : List Text, (joinBlocks bs).length = (bs.map (·.length)).sum + (bs.length - 1) := by
    intro bs
    induction bs with
    | nil => rfl
    | cons b bs ih =>
      cases bs with
      | nil => simp [joinBlocks]
      | cons c cs =>
        rw [joinBlocks, List.length_append, List.length_append, ih]
        · simp [t]
          omega
        · simp
  refine ⟨_, _, instrument_again_partial r ten i h, if_neg h1, ?_, ?_⟩
  · simp only [if_neg h1]
    intro he
    have h3 := congrArg (fun bs : List Text => (joinBlocks bs).length) he
    rw [← joinBlocks_eq] at h3
    simp [joinBlocks, t] at h3
    omega
  · rw [List.length_append, List.length_append, ← joinBlocks_eq, hlen]
    simp [t]
    omega

/-- C84, negation: with a flag that has an end of a line in it, the text is refused. -/
theorem flag_with_line_refused (r : Reader E) (ten : E) (i : Instrument E V P) (hn : ∀ k ∈ keywords, k.1 ≠ i.name)
    (hc : ¬ t "*/" <:+: i.comment) (hp : i.pars = []) (hm : i.metas = []) (f : Text) (hf : f ∈ i.flags) (c : Char) (hcf : c ∈ f)
    (hl : c.toNat ∈ [10, 11, 12, 13, 28, 29, 30, 0x85, 0x2028, 0x2029]) : readInstrument r ten (printInstrument r.constant i) = .error .syntaxError := by
  have hw : (lexWord i.name : Tok E V P) = .word i.name := lexWord_plain hn
  have hmem : ∀ fs : List Text, f ∈ fs → c ∈ joinBlanks (fs.map orNone) := by
    intro fs
    induction fs with
    | nil => simp
    | cons g fs ih =>
      intro hg
      have ho : f = g → c ∈ orNone g := by
        rintro rfl
        rw [orNone, if_neg (List.ne_nil_of_mem hcf)]
        exact hcf
      cases fs with
      | nil =>
        simp only [List.mem_cons, List.not_mem_nil, or_false] at hg
        exact ho hg
      | cons k fs =>
        rw [List.map_cons, joinBlanks]
        · rcases List.mem_cons.mp hg with hg | hg
          · simp [ho hg]
          · simp only [List.mem_append]
            exact .inr (ih hg)
        · simp
  have hjunk : (lexText (quote (joinBlanks (i.flags.map orNone))) : Tok E V P) = .junk := by
    rw [lexText, if_pos]
    rw [any_quote, List.any_eq_true]
    refine ⟨c, hmem _ hf, ?_⟩
    cases hle : lineEnd c with
    | true => rfl
    | false => exact absurd hl ((lineEnd_iff c).mp hle)
  have hne : i.flags ≠ [] := List.ne_nil_of_mem hf
  simp only [printInstrument, printComment, if_neg hc, hw, hp, hm, printFlags, if_neg hne, hjunk, List.append_assoc,
    List.cons_append, List.nil_append, printPars, List.map_nil, List.flatten_nil]
  rfl

example : '\x0b'.toNat ∈ [10, 11, 12, 13, 28, 29, 30, 0x85, 0x2028, 0x2029] ∧ '\x0b' ∈ t "-lm\x0b" := by decide

/-- C84, negation: with the end of a comment in the comment at the top (from the name of a file) the text is refused. -/
theorem comment_refused (r : Reader E) (ten : E) (i : Instrument E V P) (hc : t "*/" <:+: i.comment) :
    readInstrument r ten (printInstrument r.constant i) = .error .syntaxError := by
  simp only [printInstrument, printComment, if_pos hc, List.append_assoc, List.cons_append, List.nil_append]
  rfl

example : t "*/" <:+: t "Source: dir*/file.instr" := by decide +kernel

/-- C84, negation: two parameters of the same name can be printed and not read. -/
theorem same_parameters_refused (r : Reader E) (ten : E) (i : Instrument E V P) (hn : ∀ k ∈ keywords, k.1 ≠ i.name)
    (hc : ¬ t "*/" <:+: i.comment) (hp : ∀ p ∈ i.pars, p.Readable r.constant) (hd : ¬ (i.pars.map (·.name)).Nodup) :
    readInstrument r ten (printInstrument r.constant i) = .error .runtimeError := by
  have hw : (lexWord i.name : Tok E V P) = .word i.name := lexWord_plain hn
  have hne : i.pars ≠ [] := by
    intro he
    simp [he] at hd
  simp only [printInstrument, printComment, if_neg hc, hw, List.append_assoc, List.cons_append, List.nil_append,
    readInstrument, readHead]
  obtain ⟨p, ps, hps⟩ := List.exists_cons_of_ne_nil hne
  generalize hl : ((i.metas.map printMeta).flatten ++ _ : List (Tok E V P)) = l
  have hgo := parsGo_again r.constant l i.pars [] (printPars r.constant i.pars ++ .rpar :: l : List (Tok E V P)).length hne hp
    (by have := printPars_length (V := V) (P := P) r.constant i.pars; rw [List.length_append]; omega)
  have hh := printPars_head r.constant p ps (.rpar :: l : List (Tok E V P))
  rw [← hps] at hh
  have : readPars (.lpar :: (printPars r.constant i.pars ++ .rpar :: l)) = .error .runtimeError := by
    generalize (printPars r.constant i.pars ++ .rpar :: l : List (Tok E V P)) = x at hh hgo
    unfold readPars
    split
    · rename_i he
      simp only [List.cons.injEq, true_and] at he
      rw [he] at hh
      exact absurd rfl hh
    · rename_i he
      simp only [List.cons.injEq, true_and] at he
      rw [← he, hgo]
      simp only [List.nil_append]
      rw [if_neg hd]
    · rename_i h1
      exact absurd rfl (h1 x)
  rw [this]

end

end Verif.InstrText
