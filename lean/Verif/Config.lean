import Verif.Parse
/-
config.go and the location of the mmv file (client.go:70-84). The environment and the file system are inputs.
-/
namespace Speed

/-! ### Paths: `path/filepath` on Unix -/

/-- `strings.Split(p, "/")`. -/
def splitSlash : Str → List Str
  | [] => [[]]
  | c :: s => if c = 0x2F then [] :: splitSlash s else
    match splitSlash s with
    | [] => [[c]]
    | e :: es => (c :: e) :: es

/-- `strings.Join(es, "/")`. -/
def joinSlash : List Str → Str
  | [] => []
  | [e] => e
  | e :: es => e ++ 0x2F :: joinSlash es

/-- `filepath.Clean`, one element of the path; `st` are the elements of the result, the last first. -/
def cleanStep (rooted : Bool) (st : List Str) (e : Str) : List Str :=
  if e = [] ∨ e = [0x2E] then st
  else if e = [0x2E, 0x2E] then
    match st with
    | [] => if rooted then [] else [e]
    | x :: r => if x = [0x2E, 0x2E] then e :: st else r
  else e :: st

/-- `filepath.Clean`. The library function works on bytes in place; this is the rule of its documentation, element by
element. -/
def cleanPath (p : Str) : Str :=
  match p with
  | [] => [0x2E]
  | c :: _ =>
    let st := (splitSlash p).foldl (cleanStep (c = 0x2F)) []
    if c = 0x2F then 0x2F :: joinSlash st.reverse
    else if st = [] then [0x2E] else joinSlash st.reverse

/-- `filepath.Join`. -/
def joinPath (es : List Str) : Str :=
  match es.dropWhile (· = []) with
  | [] => []
  | r => cleanPath (joinSlash r)

/-! ### Configuration -/

open Re in
/-- `[A-Z0-9_]` (config.go:20). -/
def keyChar (c : Nat) : Bool :=
  (decide (0x41 ≤ c) && decide (c ≤ 0x5A)) || (decide (0x30 ≤ c) && decide (c ≤ 0x39)) || decide (c = 0x5F)

open Re in
/-- `([A-Z0-9_]+)=(.*)` (config.go:20); `.` is every character but a newline. -/
def confRx : Rx :=
  .cat (.cap 1 (plus (.chr keyChar))) (.cat (.chr fun c => decide (c = 0x3D))
    (.cap 2 (.star true (.chr fun c => decide (c ≠ 0x0A)))))

/-- `re.FindStringSubmatch(t)`, groups 1 and 2 (config.go:48-51). -/
def matchLine (t : Str) : Option (Str × Str) :=
  (Re.find confRx (Re.decode t)).map fun m => (Re.get m.2.2 1, Re.get m.2.2 2)

/-- The pieces between newlines; nothing after the last newline is no piece (`bufio.ScanLines`). -/
def rawLines : Str → List Str
  | [] => []
  | c :: s => if c = 0x0A then [] :: rawLines s else
    match rawLines s with
    | [] => [[c]]
    | l :: ls => (c :: l) :: ls

/-- `dropCR` of bufio: one carriage return at the end is removed. -/
def dropCR (l : Str) : Str := if l.getLast? = some 0x0D then l.dropLast else l

/-- The scanner's buffer: a line that does not fit ends the scan (`bufio.MaxScanTokenSize`; the error is not looked at). -/
def maxToken : Nat := 65536

/-- The texts that `scanner.Scan` yields (config.go:45-47). -/
def scanLines (file : Str) : List Str := ((rawLines file).takeWhile (fun l => decide (l.length < maxToken))).map dropCR

/-- The map `config`, the latest assignment first. -/
abbrev Cfg := List (Str × Str)

def Cfg.get (c : Cfg) (k : Str) : Option Str := (c.find? (fun p => p.1 = k)).map (·.2)

/-- `config[matches[1]] = matches[2]` for a line that matches (config.go:48-51). -/
def Cfg.line (c : Cfg) (t : Str) : Cfg :=
  match matchLine t with
  | none => c
  | some kv => kv :: c

/-- The loop of `initConfig` (config.go:44-53). -/
def parseConfig (file : Str) : Cfg := (scanLines file).foldl Cfg.line []

/-- The package variables (config.go:11-17). -/
structure Conf where
  rootPath : Str
  confPath : Str
  config : Option Cfg

def sPcpDir : Str := [0x50, 0x43, 0x50, 0x5F, 0x44, 0x49, 0x52]                              -- "PCP_DIR"
def sPcpConf : Str := [0x50, 0x43, 0x50, 0x5F, 0x43, 0x4F, 0x4E, 0x46]                        -- "PCP_CONF"
def sPcpTmpDir : Str := [0x50, 0x43, 0x50, 0x5F, 0x54, 0x4D, 0x50, 0x5F, 0x44, 0x49, 0x52]    -- "PCP_TMP_DIR"
def sEtc : Str := [0x65, 0x74, 0x63]                                                          -- "etc"
def sPcpConfFile : Str := [0x70, 0x63, 0x70, 0x2E, 0x63, 0x6F, 0x6E, 0x66]                    -- "pcp.conf"
def sMmv : Str := [0x6D, 0x6D, 0x76]                                                          -- "mmv"

/-- `initConfig` (config.go:23-56): `env` is `os.LookupEnv`, `read` the contents of a file that can be opened. -/
def initConfig (env read : Str → Option Str) : Conf :=
  let root := (env sPcpDir).getD [0x2F]
  let conf := (env sPcpConf).getD (joinPath [root, sEtc, sPcpConfFile])
  ⟨root, conf, (read conf).map parseConfig⟩

/-- `loc` of `mmvFileLocation` (client.go:75-81); `tmp` is `os.TempDir()`. -/
def baseDir (cf : Conf) (tmp : Str) : Str :=
  match (cf.config.getD []).get sPcpTmpDir with
  | some d => joinPath [cf.rootPath, d]
  | none => tmp

/-- `mmvFileLocation` (client.go:70-84). -/
def mmvFileLocation (cf : Conf) (tmp name : Str) : Option Str :=
  if 0x2F ∈ name then none else some (joinPath [baseDir cf tmp, sMmv, name])

end Speed
