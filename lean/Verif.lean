import Verif.IfStmt.Props
import Verif.Exec.Props
import Verif.Graph.Props
import Verif.Update.Props
import Verif.Lines.Props
import Verif.PathList.Props
import Verif.Strings.Props
import Verif.Tree.Props
import Verif.Eval.Props
import Verif.Rules.Props
import Verif.Assign.Props
import Verif.Names.Props
import Verif.Printf.Props
import Verif.Execute.Props
import Verif.Pel.Props
import Verif.Relative.Props
import Verif.Config.Props
import Verif.Vardict.Props
import Verif.VarStore.Props
import Verif.VarStore.EnvProps
import Verif.Ghosts.Props
import Verif.Scan.Props
import Verif.Scan.OnlyProps
import Verif.Links.Props
import Verif.Links.OutProps
import Verif.Links.WriteProps
import Verif.DoRule.Props
import Verif.Options.Props
import Verif.Locks.Props
import Verif.Transact.Props
import Verif.Gitignore.Props
import Verif.Fuse.Model
import Verif.Fuse.Spec
import Verif.Fuse.Lemmas
import Verif.Fuse.Agree
import Verif.Fuse.Sim
import Verif.Fuse.History
import Verif.Fuse.Props
import Verif.Restore.Model
import Verif.Restore.Lemmas
import Verif.Restore.Props
import Verif.Monitor.Model
import Verif.Monitor.Spec
import Verif.Monitor.Lemmas
import Verif.Monitor.Tokens
import Verif.Monitor.Inv
import Verif.Monitor.Wf
import Verif.Monitor.Run
import Verif.Monitor.Live
import Verif.Monitor.Props
import Verif.FullScan.Model
import Verif.FullScan.Frame
import Verif.FullScan.Kept
import Verif.FullScan.Since
import Verif.FullScan.Grow
import Verif.FullScan.Del
import Verif.FullScan.Ops
import Verif.FullScan.Lost
import Verif.FullScan.Watch
import Verif.FullScan.Mono
import Verif.FullScan.Spec
import Verif.FullScan.Located
import Verif.FullScan.Props
import Verif.Transient.Model
import Verif.Transient.Spec
import Verif.Transient.Base
import Verif.Transient.Attach
import Verif.Transient.One
import Verif.Transient.Pass
import Verif.Transient.Props
import Verif.Expand.Model
import Verif.Expand.Spec
import Verif.Expand.Lemmas
import Verif.Expand.Props
import Verif.Mempool.Model
import Verif.Mempool.Spec
import Verif.Mempool.Lemmas
import Verif.Mempool.Props
import Verif.Depfile.Model
import Verif.Depfile.Spec
import Verif.Depfile.Lemmas
import Verif.Depfile.Props
import Verif.MasterFork.Model
import Verif.MasterFork.Lemmas
import Verif.MasterFork.Steps
import Verif.MasterFork.Progress
import Verif.MasterFork.Props
import Verif.Environ.Model
import Verif.Environ.Spec
import Verif.Environ.Lemmas
import Verif.Environ.Props
import Verif.Deletes.Model
import Verif.Deletes.Spec
import Verif.Deletes.Quiet
import Verif.Deletes.Lemmas
import Verif.Deletes.Final
import Verif.Deletes.Props
import Verif.Variants.Model
import Verif.Variants.Spec
import Verif.Variants.Lemmas
import Verif.Variants.Props
import Verif.Include.Model
import Verif.Include.Spec
import Verif.Include.Lemmas
import Verif.Include.Runs
import Verif.Include.Props
import Verif.Mount.Model
import Verif.Mount.Spec
import Verif.Mount.Lemmas
import Verif.Mount.Props
import Verif.Bins.Props
import Verif.Lookup.Props
import Verif.Readdir.Props
import Verif.RunScript.Props
import Verif.Cache.Model
import Verif.Cache.Spec
import Verif.Cache.Lemmas
import Verif.Cache.Steps
import Verif.Cache.Sticky
import Verif.Cache.Props
import Verif.Generate.Model
import Verif.Generate.Spec
import Verif.Generate.Lemmas
import Verif.Generate.Script
import Verif.Generate.Order
import Verif.Generate.Props
import Verif.Mirror.Model
import Verif.Mirror.Spec
import Verif.Mirror.Lemmas
import Verif.Mirror.Inv
import Verif.Mirror.Variant
import Verif.Mirror.Steps
import Verif.Mirror.Props
import Verif.Reparse.Model
import Verif.Reparse.Spec
import Verif.Reparse.Lemmas
import Verif.Reparse.Steps
import Verif.Reparse.Accept
import Verif.Reparse.History
import Verif.Reparse.Props
import Verif.Refactor.Model
import Verif.Refactor.Spec
import Verif.Refactor.Lemmas
import Verif.Refactor.Normal
import Verif.Refactor.Props
import Verif.Upgrade.Sql
import Verif.Upgrade.Model
import Verif.Upgrade.Spec
import Verif.Upgrade.Lemmas
import Verif.Upgrade.Steps
import Verif.Upgrade.Tables
import Verif.Upgrade.Late
import Verif.Upgrade.Config
import Verif.Upgrade.Move
import Verif.Upgrade.Loop
import Verif.Upgrade.Open
import Verif.Upgrade.Content
import Verif.Upgrade.Props
import Verif.External.Model
import Verif.External.Spec
import Verif.External.Lemmas
import Verif.External.Scan
import Verif.External.Steps
import Verif.External.Drop
import Verif.External.Props
import Verif.Todo.Props
import Verif.GenDir.Props
import Verif.OpenFiles.Props
import Verif.Lua.Props
import Verif.LuaVars.Props
import Verif.LuaNames.Props
import Verif.Top.Props
import Verif.CompileDb.Props
import Verif.LnCmd.Props
import Verif.DirInputs.Props
import Verif.Symlink.Props
import Verif.Combine.Props
import Verif.Progress.Props
import Verif.Logs.Props
import Verif.MkVariant.Props
import Verif.UpdateRules.Props
import Verif.AutoUpdate.Props
import Verif.TupDirs.Props
import Verif.GraphCmd.Props
import Verif.VarAsk.Props
import Verif.ConfigVar.Props
import Verif.DoRule.SchedProps
import Verif.DoRule.AcceptProps
import Verif.Watch.Props
import Verif.Again.Props
import Verif.LuaGlob.Props
import Verif.Show.Props
import Verif.Workers.Props
import Verif.PidFile.Props
import Verif.Refs.Props
import Verif.Setup.Props
import Verif.Timespan.Props
import Verif.PreInit.Props
import Verif.TmpNames.Props
