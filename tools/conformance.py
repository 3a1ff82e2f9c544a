"""Compare the model of Python's bytes methods, int(), regular expressions, files, posixpath, urllib.parse, strptime, optparse, http.client and io.BufferedWriter (lean/Verif/Py and the
patterns of lean/Verif/Model) with the Python interpreter that runs this script, on random inputs.

This tests the trusted base, not the code in /repo, which it does not run (the tables of options are read from its text).
usage: conformance.py [inputs] [seed]      (needs a built lean/.lake)"""
import ast, contextlib, http.client, io, optparse, os, posixpath, urllib.parse, random, re, subprocess, sys, datetime, string
here = os.path.dirname(os.path.dirname(os.path.abspath(__file__)))
N = int(sys.argv[1]) if len(sys.argv) > 1 else 2000
random.seed(int(sys.argv[2]) if len(sys.argv) > 2 else 1)
TMP = "/tmp/conformance"
os.makedirs(TMP, exist_ok=True)

# the patterns, copied from the source text
I = re.I
RX = {
 "versionRx": re.compile(br'^(?P<prefix>.*?)(?P<version>\s*WARC/(?P<number>.*?))' b'(?P<nl>\r\n|\r|\n)\\Z', I),
 "headerRx": re.compile(br'^(?P<name>.*?):\s?(?P<value>.*?)' b'(?P<nl>\r\n|\r|\n)\\Z', I),
 "valueRx": re.compile(br'^\s+(?P<value>.+?)' b'(?P<nl>\r\n|\r|\n)\\Z', I),
 "nlRx": re.compile(b'^(?P<nl>\r\n|\r|\n\\Z)', I),
 "lengthRx": re.compile(b'^Content-Length$', I),
 "typeRx": re.compile(b'^Content-Type$', I),
 "Detect.blankRx": re.compile(br'^$', I),
 "Detect.filedescRx": re.compile(br'^filedesc://'),
 "blankLineRx": re.compile(br'^[\r\n]+$'),
 "arcLengthRx": re.compile(b'^Archive-length$', I),
 "arcTypeRx": re.compile(b'^Content-type$', I),
 "Http.urlRx": re.compile(b'(?P<scheme>https?)://(?P<authority>(?P<host>[^:/]+)(?::(?P<port>\\d+))?)' b'(?P<path>.*)', I),
}
GROUPS = ["prefix", "version", "number", "nl", "name", "value", "scheme", "authority", "host", "port", "path"]
SPLIT = re.compile(br'\b\s|\s\b').split
STRIP = re.compile(br'[^\w\t \|\\\/]')

words = [b"WARC/", b"warc/1.0", b"\r\n", b"\n", b"\r", b" ", b"\t", b":", b";", b"Content-Length", b"content-type", b"Archive-length", b"http", b"HTTPS",
 b"://", b"/", b"a", b"b1", b"_", b"\x00", b"\xff", b"\x0b", b"\x0c", b"\x1c", b"\x85", b"\xa0", b"filedesc://", b"0", b"12", b"-", b"+", b"0x", b"1f", b"ff", b"..", b".",
 b"80", b"2009", b"1231", b"0229", b"235960", b"\xe9", b"|", b"\\", b"chunked"]
def text():
    n = random.choice([0, 1, 1, 2, 3, 4, 5, 6, 8, 12])
    return b"".join(random.choice(words) if random.random() < .85 else bytes([random.randrange(256)]) for _ in range(n))
def number():
    n = random.choice([0, 1, 2, 3, 4, 6])
    return b"".join(random.choice([b"0", b"1", b"9", b"a", b"F", b"_", b"+", b"-", b" ", b"\t", b"\n", b"0x", b"0X", b"0b", b"g", b"\x0b", b"\x00", b"\xb2", b"77"]) for _ in range(n))
def date():
    if random.random() < .5:
        return b"".join(random.choice([b"0", b"1", b"2", b"3", b"20", b"05", b" ", b"12", b"29", b"59", b"60", b"61", b"2000"]) for _ in range(random.randrange(3, 8)))
    return b"%04d%02d%02d%02d%02d%02d" % (random.randrange(0, 3000), random.randrange(0, 14), random.randrange(0, 33), random.randrange(0, 25), random.randrange(0, 61), random.randrange(0, 62))
def path():
    return b"".join(random.choice([b"/", b"/", b"//", b".", b"..", b"a", b"b.c", b"x", b".d", b"...", b"a."]) for _ in range(random.randrange(0, 9)))

def url():
    return b"".join(random.choice([b"http", b"HTTPS", b"mailto", b"s3", b"x+y", b":", b":", b"//", b"/", b"?", b"#", b";", b";", b"a", b"b.c", b"..", b" ", b"\t", b"\n", b"\x01", b"@", b"80"]) for _ in range(random.randrange(0, 10)))

class Parser(optparse.OptionParser):
    def exit(self, status=0, msg=None): raise SystemExit(status)
    def error(self, msg): raise SystemExit(2)
TOOLS = ["dump", "index", "valid", "extract", "payload", "filter", "copy", "arc", "unpack", "links"]
PARSERS, DESTS = [], []
for f in ["warcdump", "warcindex", "warcvalid", "warcextract", "warcpayload", "warcfilter", "warc2warc", "arc2warc", "../warcunpack_ia", "warclinks"]:
    q, ds = Parser(), []
    for node in ast.walk(ast.parse(open("/repo/hanzo/%s.py" % f).read())):
        if isinstance(node, ast.Call) and isinstance(node.func, ast.Attribute) and node.func.attr == "add_option":
            kw = {k.arg: k.value.value for k in node.keywords}
            q.add_option(*[a.value for a in node.args], **kw)
            ds.append((kw["dest"], kw.get("action", "store")))
    PARSERS.append(q); DESTS.append(ds)
def args():
    k = random.randrange(len(TOOLS))
    lets = ["h", "l", "I", "L", "O", "o", "i", "U", "T", "C", "H", "D", "Z", "x", "-", "=", "v", "1"]
    names = [o for q in PARSERS for o in q._long_opt] + ["--", "--nonsense"]
    mine = list(PARSERS[k]._long_opt)
    myl = [o[1] for o in PARSERS[k]._short_opt]
    out = []
    for _ in range(random.randrange(0, 6)):
        r = random.random()
        if r < .3: a = random.choice(["a.warc", "", "-", "12", "x=y", "a:5", "s3://b/c", "--", "-5"])
        elif r < .6: a = "-" + "".join(random.choice(myl if random.random() < .93 else lets) for _ in range(random.randrange(1, 4)))
        else:
            a = random.choice(mine if random.random() < .9 else names)
            if random.random() < .5: a = a[:random.randrange(2, len(a) + 1)]
            if random.random() < .3: a += "=" + random.choice(["", "v", "a=b", "-x", "--"])
        out.append(a)
    return k, out
def opt_out(k, argv):
    try:
        with contextlib.redirect_stdout(io.StringIO()): o, a = PARSERS[k].parse_args(list(argv))
    except SystemExit as e: return ["error" if e.code else "help"]
    r = []
    for d, act in DESTS[k]:
        v = getattr(o, d)
        if act == "store_true": r.append("01"[bool(v)])
        elif act == "append": r.append(ls([x.encode() for x in v or []]))
        else: r.append(hx(b"default" if v is None else v.encode()))
    return r + [ls([x.encode() for x in a])]

class Content(io.BytesIO):
    """a record's content and nothing after it; negative sizes as with files"""
    def read(self, n):
        left = len(self.getvalue()) - self.tell()
        n = min(n, left)
        if n < -1: raise ValueError
        return io.BytesIO.read(self, n)
class Response(http.client.HTTPResponse):
    def __init__(self, fp):
        self.fp, self.debuglevel, self._method, self.headers = fp, 0, None, None
def http_out(s):
    out = b""
    try:
        r = Response(Content(s))
        r.begin()
        while True:
            b = r.read(8192)
            if not b: break
            out += b
        end = "ok"
    except http.client.HTTPException: end = "http"
    except ValueError: end = "value"
    return [hx(out), end]
def http_text():
    c = random.choice
    nl = lambda: c([b"\r\n"] * 8 + [b"\n", b"\r", b"\r\r\n", b" \r\n"])
    def status():
        return c([b"HTTP/1.1", b"HTTP/1.1", b"HTTP/1.0", b"HTTP/0.9", b"HTTP/1.", b"HTTP/2", b"http/1.1", b"x", b""]) + c([b" ", b" ", b" ", b"\t", b"  ", b"\xa0", b"\x1c"]) + \
            c([b"200", b"200", b"200", b"204", b"304", b"404", b"100", b"100", b"99", b"+200", b"2_00", b"1000", b"x", b"101", b""]) + c([b" OK", b" Not found", b" ", b"", b"\x85x"])
    def field():
        n = c([b"Content-Length", b"content-LENGTH", b"Transfer-Encoding", b"X", b"From ", b"From x", b"", b"A b", b"\xe9", b"Connection", b" x", b"Content-Type"])
        v = c([b"5", b" 5", b"0", b"3", b"-1", b"12000", b"+2", b"\xa04", b"7 ", b"x", b"chunked", b"Chunked", b"chunked ", b"gzip, chunked", b"", b"\r\n 4", b"\n chunked", b"text/plain"])
        return n + c([b": ", b":", b": ", b" :", b":\t", b""]) + v + nl()
    def head():
        if random.random() < .6:
            fs = c([[], [b"Content-Length: %d\r\n" % c([0, 3, 8192, 8193, 20000, 100])], [b"Transfer-Encoding: chunked\r\n"]])
            return b"HTTP/1.1 200 OK\r\n" + b"".join(fs) + b"X: y\r\n\r\n"
        return status() + nl() + b"".join(field() for _ in range(c([0, 1, 2, 3, 4, 99, 100, 101]) if random.random() < .2 else c([0, 1, 2, 3]))) + c([b"\r\n", b"\r\n", b"\n", b""])
    def chunks():
        t = b""
        for _ in range(random.randrange(0, 5)):
            d = bytes([65 + random.randrange(26)]) * c([1, 2, 3, 10, 8191, 8192, 8193, 5000])
            t += (c([b"%x", b"%X", b" %x", b"0x%x", b"+%x"]) % len(d)) + c([b"", b"", b";a=b", b" "]) + c([b"\r\n", b"\r\n", b"\r\n", b"\n"]) + d + (b"\r\n" if random.random() < .9 else c([b"\n", b"", b"xx"]))
        if random.random() < .8: t += c([b"0", b"0", b"0;x", b"-1", b"x", b"-2", b"000"]) + b"\r\n" + c([b"\r\n", b"T: t\r\n\r\n", b"", b"\n"])
        return t + c([b"", b"more"])
    t = head()
    while random.random() < .15: t = c([b"HTTP/1.1 100 Continue\r\n\r\n", b"HTTP/1.0 100 C\r\nA: b\r\n\r\n", head()]) + t
    t += c([b"", b"abc", b"hello world", b"z" * 9000, b"z" * 20000, chunks(), chunks(), chunks()])
    if random.random() < .1: t = t[:random.randrange(len(t) + 1)]
    if random.random() < .01: t = t.replace(b"OK", b"k" * c([65519, 65520, 65521, 65522, 70000]))
    return t

hx = lambda b: "-" if b is None else "'" + b.hex()
ls = lambda l: "[" + ",".join(hx(b) for b in l) + "]"
def err(f):
    try: return f()
    except (ValueError, TypeError, IndexError) as e: return "!"
def rxs(s):
    out = []
    for n, r in RX.items():
        m = r.match(s)
        d = m.groupdict() if m else {}
        out.append("-" if m is None else "'" + s[m.end():].hex() + ls([d.get(g) for g in GROUPS]))
    return out
def dt(f, s):
    d = err(lambda: datetime.datetime.strptime(s.decode("ascii"), f))
    return d if d == "!" else "%d.%d.%d.%d.%d.%d" % (d.year, d.month, d.day, d.hour, d.minute, d.second)
def file(s, ops):
    f = io.BytesIO(s)
    out = []
    for o, a in ops:
        if o == 0: out.append(hx(f.read(a)))
        if o == 1: out.append(hx(f.readline(a)))
        out.append(str(f.tell()))
    return out

class Raw(io.RawIOBase):
    def __init__(self): self.got = []
    def writable(self): return True
    def write(self, b):
        self.got.append(bytes(b))
        return len(b)
def buffered(size, lens):
    raw = Raw()
    f = io.BufferedWriter(raw, buffer_size=size)
    n = 0
    for l in lens:
        if l < 0: f.flush()
        else:
            f.write(bytes((n + i) % 251 for i in range(l)))
            n += l
    out = list(raw.got)
    f.flush()
    return [ls(out), hx(b"".join(raw.got[len(out):]))]

def expect(kind, s, ops):
    if kind == "b": return buffered(*ops)
    if kind == "t":
        r = [hx(s.lower()), hx(s.upper()), hx(s.strip()), hx(s.lstrip()), hx(s.rstrip()), hx(s.rstrip(b"\r\n")), ls(s.split()), ls(s.split(b":")), ls(s.split(b" ", 2)),
             "01"[b"chunked" in s], "01"[s.startswith(b"WARC/")], "01"[s.endswith(b"\n")], ls(SPLIT(s, 0)), ls(SPLIT(s, 2)),
             hx(STRIP.sub(lambda x: ('\\x%00X' % ord(x.group())).encode('ascii'), s)), hx(repr(s).encode())]
        return r + rxs(s) + file(s, ops)
    if kind == "n":
        return [str(err(lambda: int(s, 10))), str(err(lambda: int(s, 16)))]
    if kind == "d":
        return [dt('%Y%m%d%H%M%S', s), dt('%Y%m%d', s)]
    if kind == "p":
        p = s.decode("ascii")
        q = ops
        r = posixpath.splitext(p.replace("/", "_"))
        return [posixpath.split(p)[0].encode().hex(), posixpath.normpath(p).encode().hex(), posixpath.join(p, q).encode().hex(), r[0].encode().hex(), r[1].encode().hex()]

    if kind == "h": return http_out(s)
    if kind == "o": return opt_out(ops, s)
    if kind == "u":
        u = urllib.parse.urlparse(s.decode("ascii"))
        v = urllib.parse.urlparse(ops)
        return [x.encode().hex() for x in u] + [urllib.parse.urlunparse(u[:2] + v[2:5] + (None,)).encode().hex()]

inp, want = [], []
for i in range(N):
    for kind, g in (("t", text), ("n", number), ("d", date), ("p", path), ("u", url), ("h", http_text), ("o", args), ("b", text)):
        s = g()
        if kind == "t":
            ops = [(random.randrange(2), random.choice([0, 1, 2, 5, -1, 100])) for _ in range(4)]
            inp.append("t %s %s" % (s.hex(), ",".join("%d:%d" % o for o in ops)))
        elif kind == "o":
            ops, s = s
            inp.append("o %d %s" % (ops, "".join("00" + a.encode().hex() for a in s)))
        elif kind == "b":
            size = random.randrange(1, 14)
            ops = (size, [random.choice([-1, 0, 1, 2, 3, 5, size - 1, size, size + 1, random.randrange(3 * size)]) for _ in range(random.randrange(12))])
            inp.append("b %d %s" % (size, ",".join(map(str, ops[1]))))
        elif kind in "pu":
            ops = (path if kind == "p" else url)().decode()
            inp.append("%s %s %s" % (kind, s.hex(), ops.encode().hex()))
        else:
            ops = None
            inp.append("%s %s " % (kind, s.hex()))
        want.append(" ".join(expect(kind, s, ops)))
open(TMP + "/in", "w").write("\n".join(inp) + "\n")
open(TMP + "/T.lean", "w").write('''
import Verif
open Warc Rx
def unhex (s : String) : Bytes :=
  let d (c : Char) : Nat := if c.isDigit then c.toNat - 48 else c.toNat - 87
  let rec go : List Char → Bytes
    | a :: b :: r => UInt8.ofNat (16 * d a + d b) :: go r
    | _ => []
  go s.toList
def hexc (n : Nat) : Char := Char.ofNat (if n < 10 then 48 + n else 87 + n)
def hexs (b : Bytes) : String := String.ofList (b.flatMap fun x => [hexc (x.toNat / 16), hexc (x.toNat % 16)])
def hx : Option Bytes → String
  | none => "-"
  | some b => "'" ++ hexs b
def ls (l : List (Option Bytes)) : String := "[" ++ ",".intercalate (l.map hx) ++ "]"
def lsb (l : List Bytes) : String := ls (l.map some)
def grps : List Grp := [.prefix_, .version, .number, .nl, .name, .value, .scheme, .authority, .host, .port, .path]
def rxOut (r : Rx) (s : Bytes) : String :=
  match pmatch r s with
  | none => "-"
  | some mt => "'" ++ hexs mt.rest ++ ls (grps.map mt.group)
def rxl : List Rx := [''' + ", ".join(RX) + '''] 
def bit (b : Bool) : String := if b then "1" else "0"
def fileOps (f : File) : List (Nat × Int) → List String
  | [] => []
  | (o, a) :: r =>
    match (if o == 0 then File.read (some a) f else File.readline (some a) f) with
    | .ok b f' => hx (some b) :: toString f'.tell :: fileOps f' r
    | _ => ["?"]
def intOut : Option Int → String
  | none => "!"
  | some n => toString n
def dtOut : Except Exc DateTime → String
  | .error _ => "!"
  | .ok d => ".".intercalate ([d.year, d.month, d.day, d.hour, d.minute, d.second].map toString)
def asText (b : Bytes) : Unpack.Text := b.map fun c => Char.ofNat c.toNat
def ofText (t : Unpack.Text) : Bytes := t.map fun c => UInt8.ofNat c.toNat
def run (line : String) : String :=
  match line.splitOn " " with
  | k :: h :: o :: _ =>
    let s := unhex h
    " ".intercalate <|
    if k == "t" then
      [hx (lower s), hx (upper s), hx (strip s), hx (lstrip s), hx (rstrip s), hx (rstripCRLF s), lsb (splitWs s), lsb (splitAll 58 s), lsb (splitMax 32 2 s),
       bit (contains s (b! "chunked")), bit (startsWith s (b! "WARC/")), bit (endsWith s [10]), lsb (arcSplit s 0), lsb (arcSplit s 2), hx (some (s.flatMap escapeByte)), hx (some (Http.reprBytes s))]
      ++ rxl.map (rxOut · s)
      ++ fileOps (File.ofBytes s) ((o.splitOn ",").map fun x => match x.splitOn ":" with | [a, b] => (a.toNat!, b.toInt!) | _ => (0, 0))
    else if k == "o" then
      let t := ([Cli.dumpOpts, Cli.indexOpts, Cli.validOpts, Cli.extractOpts, Cli.payloadOpts, Cli.filterOpts, Cli.copyOpts, Cli.arcOpts, Cli.unpackOpts, Cli.linksOpts])[h.toNat!]!
      match Cli.parse t ((splitAll 0 (unhex o)).drop 1) with
      | .error .help => ["help"]
      | .error .error => ["error"]
      | .ok (ss, ops) => ((t.drop 1).map fun d => match d.action with
          | .storeTrue => bit (Cli.flagged d.dest ss)
          | .append => lsb (Cli.values d.dest ss)
          | _ => hx (some (Cli.value d.dest (b! "default") ss))) ++ [lsb ops]
    else if k == "b" then
      let r := ((if o == "" then [] else o.splitOn ",").map String.toInt!).foldl (fun (q : Nat × Sink) l =>
        if l < 0 then (q.1, q.2.call h.toNat! .flush)
        else (q.1 + l.toNat, q.2.call h.toNat! (.write ((List.range l.toNat).map fun i => UInt8.ofNat ((q.1 + i) % 251))))) (0, (⟨[], []⟩ : Sink))
      [lsb r.2.raw, hx (some r.2.buf)]
    else if k == "n" then [intOut (pyInt 10 s), intOut (pyInt 16 s)]
    else if k == "d" then [dtOut (Strptime.full s), dtOut (Strptime.short s)]
    else if k == "h" then
      match HttpClient.dump ⟨⟨File.openFile s, some s.length, .plain, .warc⟩, { cls := .warc, version := [], headers := [], errors := [], content := none, cfile := .stream, cfileValid := true }, []⟩ with
      | .ok _ w => [hx (some w.out), "ok"]
      | .raise (.httpException _) w => [hx (some w.out), "http"]
      | .raise .valueError w => [hx (some w.out), "value"]
      | _ => ["?"]
    else if k == "u" then
      match Links.urlparse (fun _ => true) (asText s), Links.urlparse (fun _ => true) (asText (unhex o)) with
      | .ok u, .ok v => [u.scheme, u.netloc, u.path, u.params, u.query, u.fragment, Links.urlunparse ⟨u.scheme, u.netloc, v.path, v.params, v.query, []⟩].map fun t => hexs (ofText t)
      | _, _ => ["!"]
    else
      let p := asText s
      let r := Unpack.splitext (p.map fun c => if c == '/' then '_' else c)
      [hexs (ofText (Links.dirOf p)), hexs (ofText (Unpack.normpath p)), hexs (ofText (Unpack.join p (asText (unhex o)))), hexs (ofText r.1), hexs (ofText r.2)]
  | _ => "bad"
#eval show IO Unit from do
  let ls ← IO.FS.lines "''' + TMP + '''/in"
  let h ← IO.FS.Handle.mk "''' + TMP + '''/out" .write
  for l in ls do h.putStrLn (run l)
''')
r = subprocess.run(["lake", "env", "lean", TMP + "/T.lean"], cwd=here + "/lean", capture_output=True, text=True)
if r.stdout.strip() or r.returncode: print(r.stdout[:3000], r.stderr[:1000])
got = open(TMP + "/out").read().split("\n")[:-1]
bad = 0
for a, b, c in zip(inp, want, got):
    if b != c:
        bad += 1
        if bad < 12:
            for i, (x, y) in enumerate(zip(b.split(" "), c.split(" "))):
                if x != y: print(a[:150], "field", i, "python", x[:150], "model", y[:150])
print(len(inp), "inputs,", len(got), "answers,", bad, "differences; Python", sys.version.split()[0])
