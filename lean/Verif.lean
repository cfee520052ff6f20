import Verif.Dhkey.Props
import Verif.Channel.Props
import Verif.Lists.Props
import Verif.Heap.Props
import Verif.JobQueue.Props
import Verif.Chunk.Props
import Verif.Token.Props
import Verif.Authz.Props
import Verif.Keys.Props
import Verif.Events.Props
import Verif.Mem.Props
import Verif.Route.Props
import Verif.Bloom.Props
import Verif.Phero.Props
import Verif.KeyCache.Props
import Verif.SCache.Props
import Verif.Data.Props
import Verif.Tree.Props
import Verif.Ack.Props
import Verif.Mx.Props
import Verif.Life.Props
import Verif.Subj.Props
import Verif.Skip.Props
import Verif.Ser.Props
import Verif.Wire.Props
import Verif.Rate.Props
import Verif.Dup.Props
import Verif.Addr.Props
import Verif.Ident.Props
import Verif.Keystore.Props
import Verif.Stable.Props
import Verif.Inbox.Props
import Verif.Trie.Props
import Verif.Sketch.Props
import Verif.Url.Props
import Verif.Axon.Props
import Verif.Prom.Props
import Verif.Rng.Props
import Verif.Link.Props
import Verif.Log.Props
import Verif.Search.Props
import Verif.Dial.Props
import Verif.Sm.Props
import Verif.Http.Props
import Verif.Htp.Props
import Verif.Sys.Props
import Verif.Files.Props
import Verif.Uuid.Props
import Verif.Json.Props
import Verif.Tun.Props
import Verif.Web.Props
import Verif.Hop.Props
import Verif.Group.Props
import Verif.Issue.Props
import Verif.Attr.Props
import Verif.Attr.PolicyProps
