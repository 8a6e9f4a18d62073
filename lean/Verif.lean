import Verif.Ebitmap.Props
import Verif.Avtab.Props
import Verif.Mls.Props
import Verif.Cond.Props
import Verif.Sidtab.Props
import Verif.Services.AvProps
import Verif.Services.LabelProps
import Verif.Services.ObjectsProps
import Verif.Services.UserSidsProps
import Verif.Hashtab.Props
import Verif.Optimize.Props
import Verif.Assertion.Props
import Verif.Avc.Props
import Verif.Status.Props
import Verif.Context.Props
import Verif.Mapping.Props
import Verif.Dbase.Props
import Verif.FcSort.Props
import Verif.Commit.Props
import Verif.FileLabel.Props
import Verif.Bounds.Props
import Verif.Link.Props
import Verif.Link.RoleProps
import Verif.CilSet.Props
import Verif.CilOrder.Props
import Verif.CilCon.Props
import Verif.CilDeny.Props
import Verif.CilBin.Props
import Verif.CilBin.PropsType
import Verif.CilX.Props
import Verif.CilCond.Props
import Verif.Sha.Props
import Verif.Checksum.Props
import Verif.CilConstr.Props
import Verif.CilParse.Props
import Verif.KernelCil.Props
import Verif.KernelCil.LevelProps
import Verif.KernelCil.RuleProps
import Verif.Validate.Props
import Verif.Expand.Props
import Verif.PolicyIO.Props
import Verif.FileTrans.Props
import Verif.Login.Props
import Verif.LocalFile.Props
import Verif.Modules.Props
import Verif.Xperm.Props
import Verif.ObjStmt.Props
import Verif.LocalPol.Props
import Verif.LocalPol.UsersProps
import Verif.Restore.Props
import Verif.Restore.Props2
import Verif.Restore.Examples
import Verif.Restore.Exclude
import Verif.Restore.Parallel
import Verif.Restore.Cycle
import Verif.Client.Props
import Verif.Client.BoolProps
import Verif.CompFc.Props
import Verif.CompFc.MergeProps
import Verif.FcCmp.Props
import Verif.LabelObj.MediaProps
import Verif.UserJoin.Props
import Verif.Config.Props
import Verif.HomeDirs.Props
import Verif.HomeDirs.Only
import Verif.CreateName.Props
import Verif.ComputeUser.Props
import Verif.TypeList.Props
import Verif.ComputeAv.Props
