"""Compares Model/Cli/Tree.lean with the file system of this machine (Linux): random trees, users and paths. Needs root."""
import errno, os, random, shutil, stat, subprocess, sys, tempfile

here = os.path.dirname(os.path.abspath(__file__))
lean = os.path.join(here, "..", "..", "lean")
work = tempfile.mkdtemp()
rng = random.Random(int(sys.argv[1]) if len(sys.argv) > 1 else 1)
NAMES = ["a", "b", "c", "d", "e"]
USERS, GROUPS = [1000, 1001], [100, 200]


def mode():
    return rng.choice([0o755, 0o755, 0o777, 0o700, 0o711, 0o733, rng.randrange(0o1000)])


def target():
    parts = [rng.choice(NAMES + NAMES + ["..", "."]) for _ in range(rng.randrange(1, 4))]
    s = rng.choice(["/", "//"]).join(parts)
    return ("/" if rng.random() < 0.3 else "") + s + ("/" if rng.random() < 0.15 else "")


def tree():
    """Nodes as [kind, owner, group, mode, payload]; directories come before what is in them"""
    nodes = [["d", 0, 0, 0o755, {".": 0, "..": 0}]]
    for i in range(1, rng.randrange(4, 14)):
        d = rng.choice([j for j, n in enumerate(nodes) if n[0] == "d"])
        free = [n for n in NAMES if n not in nodes[d][4]]
        if not free:
            continue
        kind = rng.choice("ddffllls")
        i = len(nodes)
        payload = {".": i, "..": d} if kind == "d" else target() if kind == "l" else "text%d" % i if kind == "f" else ""
        m = mode() | (0o2000 if rng.random() < 0.2 else 0) if kind == "d" else mode() if kind != "l" else 0o777
        nodes.append([kind, rng.choice(USERS), rng.choice(GROUPS), m, payload])
        nodes[d][4][rng.choice(free)] = i
    return nodes


def chain(n):
    """A path that leads through n links"""
    nodes = [["d", 0, 0, 0o777, {".": 0, "..": 0, "end": 1}], ["f", 1000, 100, 0o644, "end"]]
    for i in range(n):
        nodes.append(["l", 0, 0, 0o777, "end" if i == 0 else "l%d" % (i - 1)])
        nodes[0][4]["l%d" % i] = len(nodes) - 1
    return nodes


def build(nodes, base):
    paths = {0: base}
    todo = [0]
    while todo:
        d = todo.pop()
        for name, i in nodes[d][4].items():
            if name in (".", ".."):
                continue
            p = paths[i] = os.path.join(paths[d], name)
            kind, owner, group, m, payload = nodes[i]
            if kind == "d":
                os.mkdir(p)
                todo.append(i)
            elif kind == "f":
                open(p, "w").write(payload)
            elif kind == "l":
                os.symlink(payload, p)
            else:
                os.mknod(p, stat.S_IFCHR | 0o600, os.makedev(1, 3))
    for i, p in paths.items():
        os.chown(p, nodes[i][1], nodes[i][2], follow_symlinks=False)
        if nodes[i][0] != "l":
            os.chmod(p, nodes[i][3])
    return paths


def attempt(f):
    try:
        return f()
    except OSError as e:
        return errno.errorcode[e.errno]


def kernel(nodes, cred, queries):
    user, group, groups, cwd, umask = cred
    base = tempfile.mkdtemp(dir=work)
    paths = build(nodes, base)
    label = {os.lstat(p).st_ino: i for i, p in paths.items()}
    r, w = os.pipe()
    pid = os.fork()
    if pid == 0:
        try:
            out = []
            os.chroot(base)
            os.chdir(paths[cwd][len(base):] or "/")
            os.umask(umask)
            os.setgroups(groups)
            os.setegid(group)
            for q in queries:
                os.seteuid(user)
                s = attempt(lambda: str(label[os.stat(q).st_ino]))

                def read():
                    fd = os.open(q, os.O_RDONLY)
                    try:
                        return "=" + (os.read(fd, 1000).hex() if not stat.S_ISDIR(os.fstat(fd).st_mode) else "")
                    finally:
                        os.close(fd)

                o = attempt(read)

                def create():
                    fd = os.open(q, os.O_WRONLY | os.O_CREAT, 0o600)
                    st = os.fstat(fd)
                    os.close(fd)
                    if st.st_ino in label:
                        return str(label[st.st_ino])
                    os.seteuid(0)
                    for i, p in paths.items():
                        if nodes[i][0] == "d":
                            p = p[len(base):] or "/"
                            for n in os.listdir(p):
                                if os.lstat(os.path.join(p, n)).st_ino == st.st_ino:
                                    os.unlink(os.path.join(p, n))
                                    return "%d/%s %d %d %d" % (i, n.encode().hex(), st.st_uid, st.st_gid, st.st_mode & 0o7777)
                    return "lost"

                c = attempt(create)
                os.seteuid(0)
                out.append("|".join([s, o, "error" if c.startswith("E") else c]))
            os.write(w, "\n".join(out).encode())
        finally:
            os._exit(0)
    os.close(w)
    data = b""
    while True:
        b = os.read(r, 65536)
        if not b:
            break
        data += b
    os.close(r)
    os.waitpid(pid, 0)
    shutil.rmtree(base)
    return data.decode().split("\n")


cases = []
for k in range(400):
    nodes = tree() if k >= 4 else chain(38 + k)
    dirs = [i for i, n in enumerate(nodes) if n[0] == "d"]
    cred = (rng.choice(USERS * 3 + [0]), rng.choice(GROUPS), rng.sample(GROUPS, rng.randrange(2)), rng.choice(dirs),
            rng.choice([0o022, 0o077, 0, rng.randrange(0o1000)]))
    queries = [target() for _ in range(30)] + ["/", ".", "..", "x" * 255, "x" * 256, "a/" + "x" * 256, "./" * 2045 + "a", "/" * 4095,
                                               "/" * 4096, "/../a"]
    if k < 4:
        queries += ["/l%d" % i for i in range(38 + k)]
    cases.append((nodes, cred, queries))
with open(work + "/in", "w") as f:
    for nodes, (user, group, groups, cwd, umask), queries in cases:
        f.write("T\n")
        for kind, owner, g, m, payload in nodes:
            p = ",".join("%s=%d" % (n.encode().hex(), i) for n, i in payload.items()) if kind == "d" else payload.encode().hex()
            f.write("N %s %d %d %d %s\n" % (kind, owner, g, m, p))
        f.write("C %d %d %s %d %d\n" % (user, group, ",".join(map(str, groups)), cwd, umask))
        for q in queries:
            names = set(NAMES) | {"x" * 255}
            f.write("Q %s %s\n" % (q.encode().hex(), ",".join(n.encode().hex() for n in names)))
shutil.copy(here + "/Oracle.lean.txt", work + "/Oracle.lean")
out = subprocess.run(["lake", "env", "lean", "--run", work + "/Oracle.lean", work + "/in"], cwd=lean,
                     stdout=subprocess.PIPE, text=True, check=True).stdout.splitlines()
bad = n = 0
kinds = {}
for nodes, cred, queries in cases:
    for q, k in zip(queries, kernel(nodes, cred, queries)):
        o = out[n]
        n += 1
        for part in o.split("|")[:2]:
            kinds[part if part.startswith("E") else "ok"] = kinds.get(part if part.startswith("E") else "ok", 0) + 1
        if o != k:
            bad += 1
            if bad < 10:
                print("differs:", q[:60], cred, [n[:4] + [n[4] if len(n[4]) < 12 else "many"] for n in nodes][:14], "\n  Linux", k, "\n  Lean ", o)
print("%d paths, %d differ" % (n, bad), kinds)
shutil.rmtree(work)
sys.exit(bad != 0 or n != len(out))
