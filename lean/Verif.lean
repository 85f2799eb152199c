import Verif.Model.Basic
import Verif.Spec.Geometry
import Verif.Props.C05_BoxClass
import Verif.Model.FaceMask
import Verif.Props.C06_FaceMask
import Verif.Model.Cards
import Verif.Props.C04_BoxCards
import Verif.Model.Mesh
import Verif.Spec.MeshFile
import Verif.Lemmas.Mesh
import Verif.Props.C01_MeshSequence
import Verif.Model.MeshText
import Verif.Spec.Text
import Verif.Props.C03_Text
import Verif.Model.Extents
import Verif.Spec.Grid
import Verif.Props.C07_Extents
import Verif.Model.Prog
import Verif.Lemmas.Prog
import Verif.Model.Alloc
import Verif.Lemmas.Limits
import Verif.Props.C08_Bounds
import Verif.Props.C08_Step
import Verif.Props.C09_Partition
import Verif.Spec.Schedule
import Verif.Lemmas.Schedule
import Verif.Props.C10_Order
import Verif.Model.Sim
import Verif.Props.C11_Linear
import Verif.Model.Media
import Verif.Spec.Media
import Verif.Lemmas.Zero
import Verif.Props.C13_Pec
import Verif.Props.C14_Coeff
import Verif.Props.C19_Media
import Verif.Props.C40_LayerMedia
import Verif.Lemmas.Pointwise
import Verif.Props.C15_DivB
import Verif.Props.C16_Locality
import Verif.Model.Edges
import Verif.Props.C18_Edges
import Verif.Lemmas.Energy
import Verif.Lemmas.Curl
import Verif.Lemmas.Balance
import Verif.Lemmas.Inputs
import Verif.Spec.Energy
import Verif.Props.C17_Energy
import Verif.Props.C17_Setup
import Verif.Spec.Ghosts
import Verif.Model.Registry
import Verif.Props.C20_Names
import Verif.Props.C21_Ghosts
import Verif.Model.Mur
import Verif.Props.C22_Mur
import Verif.Model.PmlProfile
import Verif.Props.C23_Pml
import Verif.Props.C23_Update
import Verif.Props.C24_Debye
import Verif.Model.Filter
import Verif.Spec.Convolution
import Verif.Props.C25_Filter
import Verif.Props.C25_Surface
import Verif.Model.SibcData
import Verif.Spec.Sheet
import Verif.Props.C26_Impedance
import Verif.Props.C42_Sheet
import Verif.Model.Source
import Verif.Spec.Drive
import Verif.Props.C27_Tags
import Verif.Props.C27_Step
import Verif.Props.C27_Amplitude
import Verif.Model.Waveform
import Verif.Spec.Pulse
import Verif.Props.C28_Waveforms
import Verif.Props.C29_Spline
import Verif.Model.PlaneWave
import Verif.Spec.Wave
import Verif.Props.C30_Polarisation
import Verif.Spec.Huygens
import Verif.Props.C31_Huygens
import Verif.Props.C31_Separation
import Verif.Props.C31_Aux
import Verif.Props.C31_Axis
import Verif.Props.C31_Phase
import Verif.Props.C35_Run
import Verif.Props.C32_Window
import Verif.Props.C32_Record
import Verif.Props.C33_Transform
import Verif.Props.C34_Binary
import Verif.Props.C36_Gmsh
import Verif.Props.C36_Export
import Verif.Props.C37_Alloc
import Verif.Props.C38_Message
import Verif.Props.C43_Adjacency
import Verif.Spec.CardRules
import Verif.Props.C44_CardRules
import Verif.Spec.Turn
import Verif.Lemmas.Turn
import Verif.Lemmas.TurnPhases
import Verif.Lemmas.TurnMur
import Verif.Lemmas.TurnItems
import Verif.Lemmas.TurnWaves
import Verif.Props.C39_Axes
import Verif.Lemmas.Reaction
import Verif.Spec.Reaction
import Verif.Props.C45_Reciprocity
import Verif.Model.Deck
import Verif.Spec.Deck
import Verif.Spec.Timing
import Verif.Props.C47_Deck
import Verif.Props.C48_Timing
import Verif.Props.C13_Walls
import Verif.Spec.Images
import Verif.Lemmas.Unbounded
import Verif.Spec.Walls
import Verif.Lemmas.Extend
import Verif.Props.C49_Images
import Verif.Props.C49_Exist
import Verif.Props.C49_Half
import Verif.Props.C49_Sample
import Verif.Model.Reader
import Verif.Props.C50_Reader
import Verif.Model.PostProc
import Verif.Props.C51_Spectra
import Verif.Props.C52_Sides
import Verif.Model.ProcessDat
import Verif.Props.C53_ProcessDat
import Verif.Model.Setup
import Verif.Lemmas.Degree
import Verif.Spec.Scale
import Verif.Lemmas.ScaleGrid
import Verif.Lemmas.ScalePml
import Verif.Lemmas.ScaleMedia
import Verif.Lemmas.ScaleWave
import Verif.Lemmas.ScaleDeck
import Verif.Lemmas.ScaleCoefs
import Verif.Lemmas.ScaleRun
import Verif.Lemmas.ScaleMain
import Verif.Props.C54_Memory
import Verif.Props.C55_Scale
import Verif.Spec.Cavity
import Verif.Lemmas.Impulse
import Verif.Lemmas.CavitySetup
import Verif.Props.C56_Cavity
import Verif.Props.C57_Exchange
import Verif.Props.C57_Sample
import Verif.Lemmas.Amplitude
import Verif.Spec.Amplitudes
import Verif.Props.C58_Amplitudes
import Verif.Lemmas.SheetRun
import Verif.Spec.SheetMesh
import Verif.Props.C59_SheetMesh
import Verif.Model.Gnuplot
import Verif.Spec.Drawing
import Verif.Props.C60_Gnuplot
import Verif.Model.Output
import Verif.Spec.Output
import Verif.Props.C61_Output
import Verif.Model.Scan
import Verif.Model.MeshFile
import Verif.Spec.Page
import Verif.Spec.Meaning
import Verif.Lemmas.Scan
import Verif.Lemmas.Page
import Verif.Props.C62_MeshText
import Verif.Props.C63_Meaning
import Verif.Spec.Material
import Verif.Props.C64_Material
import Verif.Spec.SheetCard
import Verif.Props.C65_SheetLaw
import Verif.Model.DataFile
import Verif.Spec.DataFile
import Verif.Props.C66_DataFiles
import Verif.Spec.Probes
import Verif.Spec.Response
import Verif.Props.C67_Observe
import Verif.Props.C68_Longer
import Verif.Props.C69_Response
import Verif.Props.C70_Transfer
import Verif.Spec.Beam
import Verif.Props.C71_Beam
import Verif.Spec.Maxwell
import Verif.Props.C72_Step
import Verif.Props.C72_Clear
import Verif.Props.C72_Sources
import Verif.Props.C72_Maxwell
import Verif.Props.C72_Bench
import Verif.Spec.Locality
import Verif.Props.C73_Locality
import Verif.Props.C73_Rooms
import Verif.Spec.Reorder
import Verif.Props.C74_Order
import Verif.Spec.Circuit
import Verif.Props.C75_Circuit
import Verif.Spec.Held
import Verif.Props.C76_Held
import Verif.Model.Threads
import Verif.Spec.Threads
import Verif.Props.C77_Threads
import Verif.Model.PyDiff
import Verif.Spec.Compare
import Verif.Props.C78_Compare
import Verif.Spec.Rename
import Verif.Props.C79_Rename
import Verif.Spec.Poynting
import Verif.Props.C80_Poynting
import Verif.Spec.Sides
import Verif.Props.C81_Sides
import Verif.Spec.Rounding
import Verif.Props.C82_Rounding
import Verif.Spec.Layers
import Verif.Props.C83_Layers
import Verif.Spec.Plates
import Verif.Props.C84_Plates
import Verif.Props.C84_Guide
import Verif.Spec.Repeat
import Verif.Props.C85_Repeat
import Verif.Props.C85_Lattice
import Verif.Props.C85_Seam
import Verif.Props.C86_Flat
import Verif.Props.C86_Rod
import Verif.Spec.Closed
import Verif.Lemmas.Sealed
import Verif.Lemmas.Shell
import Verif.Props.C87_Sealed
import Verif.Props.C87_Hut
import Verif.Spec.Exchange
import Verif.Props.C88_Exchange
import Verif.Props.C88_Sheds
import Verif.Model.Scripts
import Verif.Props.C89_Scripts
import Verif.Spec.Passive
import Verif.Props.C90_Passive
import Verif.Props.C90_Oven
import Verif.Spec.Taking
import Verif.Props.C91_Taking
import Verif.Spec.Dispersive
import Verif.Props.C92_Dispersive
import Verif.Props.C92_Kitchen
import Verif.Spec.Ringdown
import Verif.Props.C93_Ringdown
import Verif.Props.C93_Furnace
import Verif.Spec.Msh
import Verif.Props.C94_Msh
import Verif.Props.C94_Shown
import Verif.Props.C94_Export
import Verif.Model.Gvulture
import Verif.Spec.Command
import Verif.Props.C95_Command
import Verif.Props.C95_Picture
import Verif.Props.C95_Main
import Verif.Model.Dump
import Verif.Spec.Dump
import Verif.Props.C96_Dump
import Verif.Model.Vulture
import Verif.Spec.Solver
import Verif.Props.C97_Vulture
import Verif.Spec.Later
import Verif.Props.C98_Later
import Verif.Spec.Cause
import Verif.Props.C99_Cause
import Verif.Spec.Request
import Verif.Props.C100_Request
import Verif.Spec.FarSide
import Verif.Props.C101_FarSide
import Verif.Props.C101_Absorbing
import Verif.Props.C101_Spectra
