import Verif.Props.Access
import Verif.Props.Ads
import Verif.Props.AdsHelper
import Verif.Props.Ancestors
import Verif.Props.Anchor
import Verif.Props.AnchorDrop
import Verif.Props.AnchorRace
import Verif.Props.AttrFail
import Verif.Props.Attrs
import Verif.Props.Backup
import Verif.Props.Bootstrap
import Verif.Props.CacheInit
import Verif.Props.Children
import Verif.Props.Classes
import Verif.Props.CloneUrl
import Verif.Props.CommitRace
import Verif.Props.Copy
import Verif.Props.CopyRace
import Verif.Props.Crumple
import Verif.Props.CrumpleRace
import Verif.Props.Cyphers
import Verif.Props.Data
import Verif.Props.DataDir
import Verif.Props.DataDirRace
import Verif.Props.Dedupe
import Verif.Props.Dirs
import Verif.Props.EatCache
import Verif.Props.Etag
import Verif.Props.EtagHex
import Verif.Props.Exists
import Verif.Props.Fetch
import Verif.Props.FreshClasses
import Verif.Props.Git
import Verif.Props.GitNest
import Verif.Props.GlobDirs
import Verif.Props.Graph
import Verif.Props.History
import Verif.Props.InitRace
import Verif.Props.Kept
import Verif.Props.Kind
import Verif.Props.LinkRace
import Verif.Props.Listing
import Verif.Props.LocalStat
import Verif.Props.MakeChild
import Verif.Props.Merge
import Verif.Props.MetaObj
import Verif.Props.MetaRace
import Verif.Props.Mirror
import Verif.Props.MixedRace
import Verif.Props.MixedRaceLost
import Verif.Props.MixedRaceSerial
import Verif.Props.MkdirCache
import Verif.Props.MkdirRace
import Verif.Props.MkdirRemote
import Verif.Props.MoveCache
import Verif.Props.MoveRace
import Verif.Props.PackMemo
import Verif.Props.Package
import Verif.Props.Parts
import Verif.Props.Pep440
import Verif.Props.Pretty
import Verif.Props.PrimaryMeta
import Verif.Props.Pull
import Verif.Props.PullDone
import Verif.Props.PushdRace
import Verif.Props.Race
import Verif.Props.RaceAlone
import Verif.Props.ReadOnly
import Verif.Props.Refresh
import Verif.Props.Relative
import Verif.Props.Release
import Verif.Props.Remote
import Verif.Props.RemoteEq
import Verif.Props.RemoteList
import Verif.Props.RepoMemo
import Verif.Props.Rmdirtree
import Verif.Props.RmdirtreeRace
import Verif.Props.Rmtree
import Verif.Props.RmtreeElsewhere
import Verif.Props.RmtreeRace
import Verif.Props.RunSetup
import Verif.Props.SetupVersion
import Verif.Props.Splitroot
import Verif.Props.Ssh
import Verif.Props.SshData
import Verif.Props.SshPath
import Verif.Props.Stored
import Verif.Props.StoredMore
import Verif.Props.Swap
import Verif.Props.SwapRace
import Verif.Props.Sweep
import Verif.Props.Symlink
import Verif.Props.SymlinkCache
import Verif.Props.SysId
import Verif.Props.SysIdRace
import Verif.Props.Tags
import Verif.Props.Torn
import Verif.Props.UpdateCache
import Verif.Props.Updater
import Verif.Props.Url
import Verif.Props.Utils
import Verif.Props.Validate
import Verif.Props.Versions
import Verif.Props.VisitCommit
import Verif.Props.VisitRace
import Verif.Props.WithRace
import Verif.Props.Xattrs
import Verif.Props.Yields
import Verif.Props.Zip
import Verif.Props.ZipKind
import Verif.Props.ZipMemo
import Verif.Props.ZipOpen
import Verif.Props.ZipRead
import Verif.Axioms
