import Verif.Core
import Verif.Spec
import Verif.Wp
import Verif.Props.Examples
import Verif.Props.Level1
import Verif.Props.Level2
import Verif.Props.Level3
import Verif.Props.StrongZero
import Verif.Props.Checks
import Verif.Props.Layout
import Verif.Props.Workspace
import Verif.Props.Wrap
import Verif.Props.Iamax
import Verif.Props.Region
import Verif.Props.Transpose
import Verif.Props.Scaling
import Verif.Props.Sort
import Verif.Props.Cholesky
import Verif.Props.Inverse
import Verif.Props.Lu
import Verif.Props.Getri
import Verif.Props.House
import Verif.Props.Foot
import Verif.Props.BlockRefl
import Verif.Props.Norm
import Verif.Props.Kernel
import Verif.Props.Reduce
import Verif.Props.BlasX
import Verif.Props.Rot
import Verif.Props.Tik
import Verif.Props.Eig
import Verif.Props.Ungbr
import Verif.Props.Gelqt
import Verif.Props.Geqrt3
import Verif.Props.Gehrd
import Verif.Props.Gebrd
import Verif.Props.Dispatch
import Verif.Props.Rot3
import Verif.Props.Schur
import Verif.Props.Lahqr
import Verif.Props.Svd
import Verif.Props.Gesvd
import Verif.Props.Hetrf
import Verif.Props.Trevc
import Verif.Props.Legacy
import Verif.Props.Legacy3
import Verif.Props.LegacyRank
import Verif.Props.LegacyLapack
import Verif.Props.GSchur
import Verif.Props.Elden
import Verif.Props.TikSvd
import Verif.Props.MoveBulge
import Verif.Props.Lahqz
import Verif.Props.Pbtrf
import Verif.Props.Lasy2
import Verif.Props.Trge
import Verif.Props.SchurBlk
import Verif.Props.SchurMove
import Verif.Props.Laed6
import Verif.Props.NamedQ
import Verif.Props.LahqzSchur
import Verif.Props.LahqzInf
