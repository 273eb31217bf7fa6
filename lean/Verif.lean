import Verif.Props.Oprf
import Verif.Props.Toprf
import Verif.Props.Defence
import Verif.Props.Dkg
import Verif.Props.Mpmult
import Verif.Props.Noise
import Verif.Props.Wire
import Verif.Props.TpRun
import Verif.Props.TpMsg
import Verif.Props.TpVerdict
import Verif.Props.TpSafe
import Verif.Props.PeerRun
import Verif.Props.PeerSafe
import Verif.Props.Honest
import Verif.Props.Multiplexer
import Verif.Props.Python
import Verif.Props.NoiseUse
import Verif.Props.Agreement
import Verif.Props.Grounds
import Verif.Props.Device
import Verif.Props.PyNoise
import Verif.Props.World
import Verif.Model.Query
import Verif.Model.Residue
import Verif.Model.Attack
import Verif.Spec.Serve
import Verif.Spec.Query
import Verif.Proofs.Query
import Verif.Props.EndToEnd
import Verif.Props.Query
import Verif.Props.Residue
import Verif.Props.Attack
import Verif.Props.Secrets
import Verif.Spec.Secrecy
import Verif.Proofs.Secrecy
import Verif.Props.Secrecy
import Verif.Model.SessionMem
import Verif.Spec.SessionMem
import Verif.Proofs.SessionMem
import Verif.Proofs.SessionCalls
import Verif.Proofs.SessionReads
import Verif.Proofs.SessionNew
import Verif.Proofs.SessionRun
import Verif.Props.SessionMem
import Verif.Model.PeerNoise
import Verif.Spec.PeerNoise
import Verif.Proofs.HeapKeeps
import Verif.Proofs.PeerNoise
import Verif.Proofs.PeerSlots
import Verif.Props.PeerNoise
import Verif.Spec.PeerMem
import Verif.Proofs.PeerMem
import Verif.Proofs.PeerMemRun
import Verif.Props.PeerMem
import Verif.Base.Trace
import Verif.Model.Timing
import Verif.Spec.Timing
import Verif.Proofs.Timing
import Verif.Props.Timing
import Verif.Model.Prim
import Verif.Spec.Prim
import Verif.Proofs.Prim
import Verif.Proofs.PrimMix
import Verif.Props.Prim
import Verif.Model.Tests
import Verif.Proofs.Vsps
import Verif.Props.Vsps
import Verif.Props.Tests
import Verif.Model.PrimHs
import Verif.Spec.PrimHs
import Verif.Proofs.PrimHs
import Verif.Proofs.PrimHs2
import Verif.Proofs.PrimHs3
import Verif.Props.PrimHs
import Verif.Model.AuthKeys
import Verif.Spec.AuthKeys
import Verif.Proofs.AuthKeys
import Verif.Props.AuthKeys
import Verif.Model.Report
import Verif.Spec.Report
import Verif.Proofs.Report
import Verif.Props.Report
import Verif.Model.Layout
import Verif.Props.Layout
import Verif.Model.Connection
import Verif.Props.Connection
import Verif.Model.ShareCheck
import Verif.Proofs.ShareCheck
import Verif.Props.ShareCheck
import Verif.Model.Driver
import Verif.Proofs.Driver
import Verif.Props.Driver
import Verif.Model.PyTests
import Verif.Proofs.PyTests
import Verif.Props.PyTests
import Verif.Model.Vectors
import Verif.Props.Vectors
import Verif.Model.Fuzz
import Verif.Props.Fuzz
import Verif.Model.PyDkg
import Verif.Proofs.PyDkg
import Verif.Props.PyDkg
import Verif.Proofs.Sched
import Verif.Model.PyTpDkg
import Verif.Proofs.PyTpDkg
import Verif.Props.PyTpDkg
import Verif.Model.Corrupt
import Verif.Props.Corrupt
import Verif.Spec.Doc
import Verif.Props.Doc
import Verif.Model.XkExample
import Verif.Proofs.XkExample
import Verif.Props.XkExample
import Verif.Spec.Devices
import Verif.Proofs.Devices
import Verif.Props.Devices
import Verif.Model.Karmel
import Verif.Proofs.Karmel
import Verif.Props.Karmel
import Verif.Model.XkMem
import Verif.Proofs.XkMem
import Verif.Props.XkMem
import Verif.Model.FuzzLoop
import Verif.Proofs.FuzzLoop
import Verif.Props.FuzzLoop
import Verif.Model.FuzzRecv
import Verif.Props.FuzzRecv
import Verif.Model.FuzzTp
import Verif.Proofs.FuzzTp
import Verif.Proofs.FuzzSim
import Verif.Model.FuzzPeer
import Verif.Proofs.FuzzPeerSim
import Verif.Props.FuzzTp
import Verif.Model.FuzzDump
import Verif.Proofs.FuzzDump
import Verif.Props.FuzzDump
