import Verif.Range.Props
import Verif.Scan.Props
import Verif.Runner.Props
import Verif.Runner.Launch
import Verif.Runner.Argv
import Verif.DataType.Props
import Verif.Expr.Props
import Verif.Expr.Returns
import Verif.Expr.Power
import Verif.Expr.Equal
import Verif.Expr.Print
import Verif.Expr.CRead
import Verif.Expr.CMeaning
import Verif.Expr.Visit
import Verif.Expr.CTyped
import Verif.Expr.CPower
import Verif.Literal.Props
import Verif.Orient.Props
import Verif.Orient.Euler
import Verif.Orient.Placement
import Verif.Instr.Props
import Verif.Instr.Used
import Verif.Instr.MetaTable
import Verif.Instr.Groups
import Verif.Instr.Split
import Verif.Instr.Param
import Verif.Comp.Props
import Verif.Comp.Reading
import Verif.Trace.Jump
import Verif.Trace.Split
import Verif.Trace.Frames
import Verif.Trace.Funnel
import Verif.Trace.JumpRun
import Verif.Escape.Props
import Verif.Includes.Props
import Verif.CDecl.Props
import Verif.CDecl.UserVars
import Verif.CDecl.Size
import Verif.Macros.Props
import Verif.Registry.Props
import Verif.Registry.Search
import Verif.Registry.Generator
import Verif.Flags.Props
import Verif.Hdf5.Model
import Verif.Hdf5.Lemmas
import Verif.Hdf5.Props
import Verif.Hdf5.Instr
import Verif.Loader.Text
import Verif.Loader.Sim
import Verif.Loader.SimProps
import Verif.Loader.SimNeg
import Verif.Loader.Dat
import Verif.Loader.DatShape
import Verif.Loader.DatProps
import Verif.Loader.DatAgain
import Verif.Loader.DatNeg
import Verif.Loader.Combine
import Verif.Loader.CombineProps
import Verif.Loader.CombineFiles
import Verif.Compile.Target
import Verif.Compile.Split
import Verif.Compile.Version
import Verif.Depend.Model
import Verif.Depend.Props
import Verif.InstrText.Model
import Verif.InstrText.Refs
import Verif.InstrText.Place
import Verif.InstrText.Jumps
import Verif.InstrText.Instance
import Verif.InstrText.Trace
import Verif.InstrText.Param
import Verif.InstrText.Whole
import Verif.Include.Model
import Verif.Include.Props
import Verif.Expr.Defined
import Verif.Expr.NoCond
import Verif.CEval.Model
import Verif.CEval.Props
import Verif.CEval.Types
import Verif.Depend.Keywords
import Verif.Instr.McplModel
import Verif.Instr.Mcpl
import Verif.Assembler.Model
import Verif.Assembler.Props
import Verif.Setpos.Literal
import Verif.Setpos.Model
import Verif.Setpos.Props
import Verif.Setpos.Private
import Verif.Setpos.Table
import Verif.Setpos.Nexus
import Verif.Particle.Props
import Verif.Names.Model
import Verif.Names.Lemmas
import Verif.Names.Once
import Verif.Names.Props
import Verif.Life.Model
import Verif.Life.Lemmas
import Verif.Life.Props
import Verif.Life.Memory
import Verif.Include.AutoNames
import Verif.Assembler.UserVars
import Verif.Assembler.Parameters
import Verif.Html.View
import Verif.CDecl.Visit
import Verif.Registry.Cache
import Verif.Expr.Compare
import Verif.Includes.Libraries
import Verif.Orient.AxisAngle
import Verif.Registry.Tags
import Verif.Manage.Cache
import Verif.Orient.Arithmetic
import Verif.Reader.SyntaxError
import Verif.Reader.Configure
import Verif.Include.Parameters
import Verif.Expr.Parse
import Verif.Runner.Results
import Verif.Compile.Save
import Verif.Loader.Bins
import Verif.Expr.Lists
import Verif.Expr.Flag
import Verif.Registry.Cli
import Verif.Runner.Settings
import Verif.Registry.Loader
import Verif.Compile.Check
import Verif.Expr.Contains
import Verif.Registry.Spec
