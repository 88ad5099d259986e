import Verif.Chunk.Props
import Verif.Version.Props
import Verif.Duration.Props
import Verif.Duration.Exact
import Verif.Template.Props
import Verif.Trie.Props
import Verif.Keybindings.Props
import Verif.Keybindings.Exact
import Verif.Keybindings.Engine
import Verif.Input.Props
import Verif.Input.Exact
import Verif.Events.Props
import Verif.Events.Fair
import Verif.Events.Exact
import Verif.Reaper.Props
import Verif.Reaper.Fair
import Verif.Reaper.Exact
import Verif.Reaper.Memory
import Verif.Exhaust.Props
import Verif.ExitNotify.Props
import Verif.EtcEnv.Props
import Verif.EtcEnv.Exact
import Verif.Env.Props
import Verif.Env.Exact
import Verif.Client.Props
import Verif.Config.Props
import Verif.Config.Exact
import Verif.Watcher.Props
import Verif.Watcher.Repair
import Verif.Sections.Model
import Verif.Sections.Lemmas
import Verif.Sections.Props
import Verif.Sentinel.Props
import Verif.Sentinel.Exact
import Verif.S2C.Props
import Verif.S2C.Exact
import Verif.S2C.Redraw
import Verif.Pipe.Props
import Verif.Pipe.Fair
import Verif.Handshake.Props
import Verif.Handshake.Exact
import Verif.Handshake.Fair
import Verif.Launch.Props
import Verif.Launch.Repair
import Verif.Sleep.Props
import Verif.Motd.Props
import Verif.Motd.Exact
import Verif.Kill.Props
import Verif.Kill.Exact
import Verif.Inject.Props
import Verif.Inject.Exact
import Verif.Scroll.Props
import Verif.Util.FdTable
import Verif.Util.FdHistory
import Verif.PagerSize.Model
import Verif.PagerSize.Props
import Verif.PagerSize.Taken
import Verif.PagerSize.Exact
import Verif.PagerFd.Model
import Verif.PagerFd.Props
import Verif.PagerFd.Exact
import Verif.ShellFd.Model
import Verif.ShellFd.Props
import Verif.ShellFd.Exact
import Verif.Pager.Props
import Verif.Pager.Fair
import Verif.Vars.Props
import Verif.Vars.Exact
import Verif.Fds.Props
import Verif.Server.Props
import Verif.Server.Exact
import Verif.Server.Replies
import Verif.Server.Deadlock
import Verif.Server.Fair
import Verif.Server.About
import Verif.Background.Props
import Verif.Force.Props
import Verif.Listing.Props
import Verif.Listing.Follow
import Verif.Sizes.Props
import Verif.Startup.Props
import Verif.Startup.Repair
import Verif.Startup.Exact
import Verif.Attach.Props
import Verif.Attach.Exact
import Verif.Winch.Props
import Verif.Winch.Fair
import Verif.Server.Follow
import Verif.Server.Isolation
import Verif.Server.Orphans
import Verif.Server.LostExact
import Verif.Server.GivenExact
import Verif.Conns.Props
import Verif.Spawn.Props
import Verif.Spawn.Exact
import Verif.Perms.Props
import Verif.Perms.Exact
import Verif.Env.Source
import Verif.Env.SourceExact
import Verif.Wire.Props
import Verif.Wire.Repair
import Verif.Hooks.Props
import Verif.Activation.Props
import Verif.User.Props
import Verif.Util.Fair
import Verif.Bidi.Fair
import Verif.Bidi.Exact
import Verif.Bidi.Leave
import Verif.Bidi.Props
import Verif.Json.Props
import Verif.Json.Exact
import Verif.Prompt.Props
import Verif.Prompt.Repair
import Verif.Signals.Props
import Verif.Signals.Exact
import Verif.Signals.Fair
import Verif.CfgLock.Props
import Verif.CfgLock.Exact
import Verif.CfgLock.Fair
import Verif.Switch.Props
import Verif.Switch.Exact
import Verif.Symlink.Props
import Verif.Symlink.Exact
import Verif.Fork.Props
import Verif.Main.Props
import Verif.Pipe.Display
import Verif.Motd.Follow
import Verif.Events.Leave
import Verif.Events.LeaveExact
import Verif.Slow.Props
import Verif.EndToEnd.Props
import Verif.EndToEnd.Fair
import Verif.LetGo.Props
import Verif.LetGo.Repair
import Verif.PagerRun.Props
import Verif.PagerRun.Repair
import Verif.PagerRun.Exact
import Verif.PagerRun.Fair
import Verif.ShellStart.Props
import Verif.Watcher.Fair
import Verif.ExitNotify.Fair
import Verif.ExitNotify.Exact
import Verif.S2C.Fair
import Verif.S2C.Config
import Verif.ShellStart.Compose
import Verif.Locks.Model
import Verif.Locks.Props
import Verif.Locks.Fair
import Verif.Locks.Repair
import Verif.ShellPrompt.Model
import Verif.ShellPrompt.Props
import Verif.ShellPrompt.Exact
import Verif.Logs.Model
import Verif.Logs.Props
import Verif.Logs.Repair
import Verif.Noise.Model
import Verif.Noise.Props
import Verif.Noise.Exact
import Verif.Intr.Model
import Verif.Intr.Props
import Verif.Nest.Model
import Verif.Nest.Props
import Verif.Nest.Out
import Verif.Disp.Model
import Verif.Disp.Props
import Verif.S2C.Kept
import Verif.StartCmd.Model
import Verif.StartCmd.Props
import Verif.Hangup.Model
import Verif.Hangup.Props
import Verif.SessDir.Model
import Verif.SessDir.Props
import Verif.Reading.Model
import Verif.Reading.Props
import Verif.Clock.Model
import Verif.Clock.Props
import Verif.Message.Model
import Verif.Message.Props
import Verif.Message.Fair
import Verif.Message.Repair
import Verif.BusClose.Model
import Verif.BusClose.Props
import Verif.BusClose.Repair
