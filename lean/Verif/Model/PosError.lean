import Verif.Model.WsaError

/-!
# Model: the text of a system error on Linux and macOS

`rpp/impl/log.cpp:82-91` (`Log::sys_error`) and `rpp/pos/thread_pos.cpp:24-33` (`error`), the same code with a buffer each. The C library
has a text for each error number it knows; `strerror_r` is modelled by the manuals of glibc and of macOS.
-/

namespace Rpp.PosErr

open Rpp.Wsa (put)

/-- The buffer (`rpp/impl/log.cpp:83`, `rpp/pos/thread_pos.cpp:26`). -/
def size : Nat := 256

/-- What a `String_View` of a C string shows: the text of the library, which does not change, or the buffer up to the first zero at the
time of the call (`rpp/string0.h:17-19`). -/
inductive View where
  | fixed (text : List Byte)
  | buffer (length : Nat)
  deriving DecidableEq

/-- Reading a view while the buffer holds `buf`. -/
def View.read (buf : List Byte) : View → List Byte
  | .fixed t => t
  | .buffer n => buf.take n

/-- As much of a text as fits with a terminator. -/
def cut (text : List Byte) : List Byte := text.take (size - 1)

/-- On Linux (`rpp/impl/log.cpp:89`, `rpp/pos/thread_pos.cpp:31`): the GNU `strerror_r` returns the text of the library for the
errors it knows, without use of the buffer, and otherwise writes one into the buffer. -/
def linux (msg : Int → Option (List Byte)) (err : Int) (buf : List Byte) : View × List Byte :=
  match msg err with
  | some t => (.fixed t, buf)
  | none =>
    let t := cut (lit "Unknown error " ++ Fmt.intText err)
    (.buffer t.length, put buf t)

/-- `strerror_r` on macOS: the text in the buffer, and `EINVAL` (22) for an unknown number, `ERANGE` (34) if the text was cut. -/
def strerror (msg : Int → Option (List Byte)) (err : Int) (buf : List Byte) : Nat × Nat × List Byte :=
  match msg err with
  | some t => (if t.length < size then 0 else 34, (cut t).length, put buf (cut t))
  | none =>
    let t := cut (lit "Unknown error: " ++ Fmt.intText err)
    (22, t.length, put buf t)

/-- On macOS (`rpp/impl/log.cpp:86-87`, `rpp/pos/thread_pos.cpp:28-29`). -/
def mac (msg : Int → Option (List Byte)) (err : Int) (buf : List Byte) : Res (View × List Byte) :=
  match strerror msg err buf with
  | (ret, n, buf) => if ret = 0 then .ok (.buffer n, buf) else .error .die

end Rpp.PosErr
