import Verif.Props.Args
import Verif.Props.SuperCell
import Verif.Props.AtomicWeight
import Verif.Props.UnitCell
import Verif.Props.PreProcess
import Verif.Props.KPoints
import Verif.Props.ForceConstant
import Verif.Props.Phonon
import Verif.Props.DynMatrix
import Verif.Props.Frequencies
import Verif.Props.Tetra
import Verif.Props.TetraMesh
import Verif.Props.TetraWeight
import Verif.Props.TetraExact
import Verif.Props.ProgramTetra
import Verif.Props.ProgramMode
import Verif.Props.ProgramModeExample
import Verif.Props.ProgramProjected
import Verif.Props.ProgramProjectedExample
import Verif.Props.Dos
import Verif.Props.DosMesh
import Verif.Props.Thermal
import Verif.Props.ThermalEnergy
import Verif.Props.Units
import Verif.Props.Program
import Verif.Props.ProgramExample
import Verif.Props.ProgramDos
import Verif.Props.ProgramDosExample
import Verif.Props.Stable
import Verif.Props.StableExample
import Verif.Props.Machine
import Verif.Props.MachineExample
import Verif.Props.ProgramSound
import Verif.Props.Mode
import Verif.Props.ModeFiles
import Verif.Props.Band
import Verif.Props.Vasp
import Verif.Props.Espresso
import Verif.Props.Aims
import Verif.Props.Forces
import Verif.Props.SymOps
import Verif.Props.Symmetry
import Verif.Props.SymDisp
import Verif.Props.CellImages
import Verif.Props.SymEnd
import Verif.Props.SymFixed
import Verif.Props.SymFixedPhonons
import Verif.Props.SymSame
import Verif.Props.FileOrder
import Verif.Props.Cli
import Verif.Props.PostProcess
import Verif.Props.Files
import Verif.Props.Readers
import Verif.Props.Output
import Verif.Props.Exact
import Verif.Props.Nearest
import Verif.Props.Invariance
import Verif.Props.Plot
import Verif.Props.History
import Verif.Props.CliArgs
import Verif.Props.Faithful
import Verif.Props.ForceFiles
import Verif.Props.KFiles
import Verif.Props.Numbers
import Verif.Props.ProgramNear
import Verif.Props.ProgramSym
import Verif.Props.ProgramSymExample
import Verif.Props.Interrupt
import Verif.Props.PostInterrupt
import Verif.Props.PostMolecule
import Verif.Props.PostRecord
import Verif.Props.ModeTrace
import Verif.Props.MoleculeDos
import Verif.Props.ModeMotion
