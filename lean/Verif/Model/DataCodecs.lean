import Verif.Model.Proto
import Verif.Model.Addr
/-
The `Data` codecs of the shipped id and address types.
Source: /repo/memberlist-proto/src/data/{string,bytes,primitives}.rs
-/
namespace Verif

/-- A Rust string: UTF-8 bytes. Standard library. -/
abbrev RStr := { b : Bytes // isUtf8 b = true }

/-- `Data for String / SmolStr / Arc<str> / Box<str>`, data/string.rs:9-53. -/
def stringCodec : DataCodec RStr where
  encode s := if s.1 = [] then some [] else if s.1.length > 2 ^ 32 - 1 then none else some s.1
  decode b := if h : isUtf8 b = true then some (b.length, ⟨b, h⟩) else none

/-- `Data for SocketAddr` behind the interface of the bridge, data/primitives.rs:245-311. -/
def addrCodec : DataCodec SocketAddr where
  encode := dataEncodeAddr
  decode b := match dataDecodeAddr b with
    | .ok r => some r
    | .error _ => none

end Verif
