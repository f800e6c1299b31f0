import Verif.Model.Format

/-!
# Model: the text of a socket error on Windows

`rpp/w32/net_w32.cpp:10-33`. The system has a text in the code page of the user for each error number; `FormatMessageA` is modelled by its
documentation. There is one buffer for each thread; the view that is returned points into it.
-/

namespace Rpp.Wsa

/-- The buffer (`rpp/w32/net_w32.cpp:12`). -/
def size : Nat := 256

/-- A view: the length of the text at the start of the buffer (`rpp/w32/net_w32.cpp:23, 26`). -/
abbrev View := Nat

/-- Reading a view: what the buffer holds now. -/
def read (buf : List Byte) (v : View) : List Byte := buf.take v

/-- Writing text and terminator at the start of the buffer. -/
def put (buf text : List Byte) : List Byte := text ++ 0#8 :: buf.drop (text.length + 1)

/-- `FormatMessageA` (`rpp/w32/net_w32.cpp:15-16`): the text and its terminator if there is room for both; otherwise it returns 0. -/
def format (msg : Int → List Byte) (err : Int) (buf : List Byte) : Nat × List Byte :=
  if (msg err).length + 1 ≤ size then ((msg err).length, put buf (msg err)) else (0, buf)

/-- `wsa_error_code` (`rpp/w32/net_w32.cpp:10-27`): the view and the buffer afterwards. `snprintf` writes all of the text, as it is
shorter than the buffer. -/
def errorCode (msg : Int → List Byte) (err : Int) (buf : List Byte) : Res (View × List Byte) :=
  let (written, buf) := format msg err buf
  if size < written + 1 then .error .die
  else if written ≤ 1 then
    let text := lit "WinSock Error: " ++ Fmt.intText err
    if text.length = 0 ∨ size < text.length + 1 then .error .die
    else .ok (text.length, put buf text)
  else .ok (written - 1, buf)

/-- `wsa_error` (`rpp/w32/net_w32.cpp:29-33`); `err` is what `WSAGetLastError` returns. -/
def error (msg : Int → List Byte) (err : Int) (buf : List Byte) : Res (View × List Byte) :=
  if err = 0 then .ok (0, buf) else errorCode msg err buf

end Rpp.Wsa
