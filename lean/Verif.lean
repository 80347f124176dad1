import Verif.Dname.Props
import Verif.Serial.Props
import Verif.Rdataset.Props
import Verif.Baseenc.Props
import Verif.WireCtx.Props
import Verif.Bitmap.Props
import Verif.Queue.Props
import Verif.Heap.Props
import Verif.Evsched.Props
import Verif.Events.Props
import Verif.Sockaddr.Props
import Verif.Acl.Props
import Verif.Edns.Props
import Verif.Tcp.Props
import Verif.Trie.Props
import Verif.Zonedb.Props
import Verif.Rrwire.Props
import Verif.Pkt.Props
import Verif.Pktparse.Props
import Verif.Nsecnext.Props
import Verif.Lmdb.Props
import Verif.Timers.Props
import Verif.Kasp.Props
import Verif.Catalog.Props
import Verif.Cookies.Props
import Verif.Changeset.Props
import Verif.Diff.Props
import Verif.Ddns.Props
import Verif.Journal.Props
import Verif.Jserial.Props
import Verif.Nsecchain.Props
import Verif.Answer.Props
import Verif.Tsig.Props
import Verif.Ctl.Props
import Verif.Keyroll.Props
import Verif.Kru.Props
import Verif.Pool.Props
import Verif.Triecow.Props
import Verif.Nsecproof.Props
import Verif.Xfr.Props
import Verif.Rdfield.Props2
import Verif.Zonesign.Props2
import Verif.Nsec3proof.Props
import Verif.Query.Props2
import Verif.Query.Props3
import Verif.Confio.Props
import Verif.Confdb.Props
import Verif.Zload.Props
import Verif.Adjust.Props
import Verif.Fdset.Props
import Verif.Synth.Props
import Verif.Proxy.Props
import Verif.Connpool.Props
import Verif.Reverse.Props
import Verif.Catint.Props
import Verif.Noudp.Props
import Verif.Queryacl.Props
