import Verif.Model.OverlayPeers
import Verif.Model.OverlayProto

/-!
# The query of the peer exchange: `exchange_random_peers_ext` of `src/overlay/overlay.rs`
-/
namespace Verif.Overlay
open Verif.Tl

variable {c : Crypto}

/-- The query of `exchange_random_peers_ext` as `adnl_query` sends it (overlay.rs:374-395, 507-510;
adnl/node/mod.rs:571-585). -/
def exchangeQuery (e : PEnv c) (s : PState) (now : Nat) (chosen : List Bytes) : Bytes :=
  queryPrefix e.overlay ++ writeGetRandomPeers (prepareRandomPeers e s now chosen)

end Verif.Overlay
