import Verif.Spec.HttpText
/-
  Several messages on one connection (property C75).
-/
namespace Warc.Http

/-- A program that reads the messages of a connection: the finished ones, the one in progress with its parser, the kinds of parser to use for the
messages after that, and bytes that nobody has taken. -/
structure Line where
  done : List Msg
  cur : Option (Kind × Msg)
  todo : List Kind
  over : Bytes

/--
```
rest = current.feed(piece)
while current.complete():
    done.append(current)
    if not todo: over += rest; break
    current = todo.pop(0)(ignore_headers)
    rest = current.feed(rest)
```
`none`: `feed` raises or does not return. -/
def pour (c : Codec) (ig : List PyStr) : Kind → Msg → List Kind → Bytes → Option Line
  | k, m, [], piece =>
    match k.feed c piece m with
    | .ok rest m' => if m'.complete then some ⟨[m'], none, [], rest⟩ else some ⟨[], some (k, m'), [], rest⟩
    | _ => none
  | k, m, k2 :: ks, piece =>
    match k.feed c piece m with
    | .ok rest m' =>
      if m'.complete then (pour c ig k2 (k2.message ig) ks rest).map fun l => { l with done := m' :: l.done }
      else some ⟨[], some (k, m'), k2 :: ks, rest⟩
    | _ => none

/-- the next piece from the connection -/
def Line.receive (c : Codec) (ig : List PyStr) (l : Line) (piece : Bytes) : Option Line :=
  match l.cur with
  | none => some { l with over := l.over ++ piece }
  | some (k, m) => (pour c ig k m l.todo piece).map fun l' => { l' with done := l.done ++ l'.done, over := l.over ++ l'.over }

/-- all pieces one after the other -/
def Line.receiveAll (c : Codec) (ig : List PyStr) : Line → List Bytes → Option Line
  | l, [] => some l
  | l, p :: ps => (l.receive c ig p).bind fun l' => l'.receiveAll c ig ps

/-- a new connection on which messages of these kinds are expected -/
def Line.new (ig : List PyStr) : List Kind → Line
  | [] => ⟨[], none, [], []⟩
  | k :: ks => ⟨[], some (k, k.message ig), ks, []⟩

/-- the messages are complete and as they should be, one by one -/
def AllParsed : List (Kind × Message) → List Msg → Prop
  | [], [] => True
  | x :: xs, m :: ms => m.complete = true ∧ Parsed x.2 m ∧ AllParsed xs ms
  | _, _ => False

/-- the messages as they come over the connection -/
def texts (xs : List (Kind × Message)) : Bytes := xs.flatMap fun x => x.2.text

end Warc.Http
