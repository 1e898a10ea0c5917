import Verif.Comp.Model
import Verif.Instr.Props

/-! Properties C55 and C68. -/

namespace Verif.Comp
open Verif.Instr
variable {W : Type}

theorem nameUsed_iff (c : Comp W) (n : String) : c.nameUsed n = true ↔
    n ∈ (c.define ++ c.setting ++ c.output).map (·.1) := by
  simp only [Comp.nameUsed, Bool.or_eq_true, present_iff, List.map_append, List.mem_append]

/-- The define and setting parameters of a definition. -/
def Comp.names (c : Comp W) : List String := c.define.map (·.1) ++ c.setting.map (·.1)

/-- No name twice among the define and setting parameters, nor among the output parameters. -/
def Comp.Unique (c : Comp W) : Prop := c.names.Nodup ∧ (c.output.map (·.1)).Nodup

theorem unique_call (c : Comp W) (o : Op W) (h : c.Unique) : (c.call o).1.Unique := by
  obtain ⟨h1, h2⟩ := h
  cases o with
  | define a =>
    simp only [Comp.call, Comp.addDefine]
    split
    · exact ⟨h1, h2⟩
    · rename_i hn
      rw [nameUsed_iff] at hn
      simp only [List.map_append, List.mem_append, not_or] at hn
      refine ⟨?_, h2⟩
      simp only [Comp.names, List.map_append, List.map_cons, List.map_nil, List.append_assoc]
      simp only [Comp.names, List.nodup_append] at h1 ⊢
      refine ⟨h1.1, ⟨by simp, h1.2.1, ?_⟩, ?_⟩
      · intro x hx y hy
        simp only [List.mem_singleton] at hx
        subst hx
        rintro rfl
        exact hn.1.2 hy
      · intro x hx y hy
        simp only [List.mem_append, List.mem_singleton] at hy
        rcases hy with rfl | hy
        · rintro rfl; exact hn.1.1 hx
        · exact h1.2.2 x hx y hy
  | setting a =>
    simp only [Comp.call, Comp.addSetting]
    split
    · exact ⟨h1, h2⟩
    · rename_i hn
      rw [nameUsed_iff] at hn
      simp only [List.map_append, List.mem_append, not_or] at hn
      refine ⟨?_, h2⟩
      have : Comp.names { c with setting := c.setting ++ [a] } = ((c.define ++ c.setting) ++ [a]).map (·.1) := by
        simp [Comp.names]
      rw [this]
      apply nodup_snoc _ _ (by simpa [Comp.names] using h1)
      rw [List.map_append, List.mem_append, not_or]
      exact hn.1
  | output a =>
    simp only [Comp.call, Comp.addOutput]
    split
    · exact ⟨h1, h2⟩
    · rename_i hn
      rw [present_iff] at hn
      refine ⟨h1, ?_⟩
      exact nodup_snoc _ _ h2 hn

/-- **C55**: after any sequence of calls starting from a definition without parameters, no name is held twice among the
define and setting parameters, nor among the output parameters. -/
theorem component_parameter_names_unique (ops : List (Op W)) :
    let c := ({} : Comp W).calls ops
    (c.define.map (·.1) ++ c.setting.map (·.1)).Nodup ∧ (c.output.map (·.1)).Nodup := by
  have key : ∀ (ops : List (Op W)) (c : Comp W), c.Unique → (c.calls ops).Unique := by
    intro ops
    induction ops with
    | nil => exact fun _ h => h
    | cons o ops ih => exact fun c h => ih _ (unique_call c o h)
  exact key ops {} ⟨by simp [Comp.names], by simp⟩

/-- **C55**: adding a define or setting parameter raises, and changes nothing, exactly if the name is one of the
parameters of any kind; otherwise the parameter is appended to its kind and nothing else changes. -/
theorem add_parameter_spec (c : Comp W) (a : Named W) :
    (a.1 ∈ (c.define ++ c.setting ++ c.output).map (·.1) →
      c.addDefine a = (c, some .runtimeError) ∧ c.addSetting a = (c, some .runtimeError)) ∧
    (a.1 ∉ (c.define ++ c.setting ++ c.output).map (·.1) →
      c.addDefine a = (⟨c.define ++ [a], c.setting, c.output⟩, none) ∧
      c.addSetting a = (⟨c.define, c.setting ++ [a], c.output⟩, none)) := by
  constructor
  · intro h
    have := (nameUsed_iff c a.1).2 h
    simp [Comp.addDefine, Comp.addSetting, this]
  · intro h
    have : c.nameUsed a.1 = false := by
      rw [Bool.eq_false_iff]; exact fun hc => h ((nameUsed_iff c a.1).1 hc)
    simp [Comp.addDefine, Comp.addSetting, this]

/-- An output parameter may have the name of a define or setting parameter, but not of another output parameter. -/
theorem add_output_spec (c : Comp W) (a : Named W) :
    (a.1 ∈ c.output.map (·.1) → c.addOutput a = (c, some .runtimeError)) ∧
    (a.1 ∉ c.output.map (·.1) → c.addOutput a = (⟨c.define, c.setting, c.output ++ [a]⟩, none)) := by
  constructor
  · intro h
    simp [Comp.addOutput, (present_iff _ _).2 h]
  · intro h
    have : present c.output a.1 = false := by
      rw [Bool.eq_false_iff]; exact fun hc => h ((present_iff _ _).1 hc)
    simp [Comp.addOutput, this]

/-- Whether a name can be given to parameters of two kinds depends on the order: output after setting is accepted,
setting after output raises. -/
theorem output_order_matters :
    (({} : Comp Nat).calls [.setting ("a", 1), .output ("a", 2)]).names = ["a"] ∧
    ((({} : Comp Nat).calls [.setting ("a", 1)]).call (.output ("a", 2))).2 = none ∧
    ((({} : Comp Nat).calls [.output ("a", 2)]).call (.setting ("a", 1))).2 = some .runtimeError := by decide +kernel

/-- **C55**: each define or setting parameter is found under its name. -/
theorem get_parameter_finds (ops : List (Op W)) (a : Named W) (d : Option (Named W)) :
    let c := ({} : Comp W).calls ops
    (a ∈ c.define ++ c.setting → c.getParameter a.1 d = some a) ∧
    (a.1 ∉ c.define.map (·.1) ++ c.setting.map (·.1) → c.getParameter a.1 d = d) := by
  intro c
  have hu : (c.define.map (·.1) ++ c.setting.map (·.1)).Nodup := (component_parameter_names_unique ops).1
  simp only [List.nodup_append] at hu
  constructor
  · intro ha
    unfold Comp.getParameter
    rcases List.mem_append.1 ha with ha | ha
    · rw [if_pos ((present_iff _ _).2 (List.mem_map_of_mem ha))]
      exact first?_of_mem _ _ hu.1 ha
    · have h1 : ¬ present c.define a.1 = true := by
        intro hc
        exact hu.2.2 _ ((present_iff _ _).1 hc) _ (List.mem_map_of_mem ha) rfl
      rw [if_neg h1, if_pos ((present_iff _ _).2 (List.mem_map_of_mem ha))]
      exact first?_of_mem _ _ hu.2.1 ha
  · intro ha
    rw [List.mem_append, not_or] at ha
    unfold Comp.getParameter
    rw [if_neg fun hc => ha.1 ((present_iff _ _).1 hc), if_neg fun hc => ha.2 ((present_iff _ _).1 hc)]

example : (({} : Comp Nat).calls [.define ("a", 1), .setting ("b", 2), .setting ("a", 3), .output ("b", 4)]).names = ["a", "b"] ∧
    (({} : Comp Nat).calls [.define ("a", 1), .setting ("b", 2)]).getParameter "b" none = some ("b", 2) := by decide +kernel

/-! ### Sections of a copied definition -/

/-- The blocks a section clause stands for by itself. -/
def Clause.blocks : Clause → List Block
  | .block b => [b]
  | .copy other extend => other ++ extend.toList

/-- **C68** (partial): a section not written is that of the copied definition; a section other than SHARE written as
`COPY` (with or without EXTEND), or any section if the copied definition has none, is what is written, without its
empty blocks. Missing: the two theorems below show that the full claim is false. -/
theorem written_section_replaces_partial (k : Kind) (old : List Block) :
    sectionOf k old none = old ∧
    (∀ other ext, k ≠ .share → sectionOf k old (some (.copy other ext)) =
      (other ++ ext.toList).filter (fun b => b.any fun c => c ≠ ' ' ∧ c ≠ '\t' ∧ c ≠ '\n')) ∧
    (∀ c : Clause, sectionOf k [] (some c) =
      c.blocks.filter (fun b => b.any fun c => c ≠ ' ' ∧ c ≠ '\t' ∧ c ≠ '\n')) := by
  have key : ∀ bs : List Block, blocksToRawC bs =
      bs.filter (fun b => b.any fun c => c ≠ ' ' ∧ c ≠ '\t' ∧ c ≠ '\n') := by
    intro bs
    unfold blocksToRawC
    congr 1
    funext b
    unfold Block.isEmpty
    induction b with
    | nil => rfl
    | cons c b ih =>
      simp only [List.filter_cons, List.any_cons]
      by_cases h : c = ' ' ∨ c = '\t' ∨ c = '\n'
      · have h1 : (!(c == ' ' || c == '\t' || c == '\n')) = false := by
          rcases h with rfl | rfl | rfl <;> decide
        have h2 : (decide (c ≠ ' ' ∧ c ≠ '\t' ∧ c ≠ '\n')) = false := by
          rcases h with rfl | rfl | rfl <;> decide
        rw [h1, h2, Bool.false_or]
        exact ih
      · simp only [not_or] at h
        simp [h]
  refine ⟨rfl, ?_, ?_⟩
  · intro other ext hk
    simp only [sectionOf, readSection, if_neg hk, List.nil_append]
    exact key _
  · intro c
    cases c with
    | block b => simp only [sectionOf, readSection, List.nil_append]; exact key _
    | copy other ext => simp only [sectionOf, readSection, ite_self, List.nil_append]; exact key _

/-- The negation of C68: a block written for a section of a copied definition is appended to the copied section, whatever
the section; the new component runs both. -/
theorem written_block_appends (k : Kind) :
    sectionOf k ["a();".toList] (some (.block "b();".toList)) = ["a();".toList, "b();".toList] := by
  cases k <;> decide +kernel

/-- The negation of C68 for `SHARE COPY`: the copied section stays as well, so that `COPY` of the component itself copied
defines every function twice. -/
theorem share_copy_repeats :
    sectionOf .share ["f();".toList] (some (.copy ["f();".toList] none)) = ["f();".toList, "f();".toList] := by
  decide +kernel

end Verif.Comp
