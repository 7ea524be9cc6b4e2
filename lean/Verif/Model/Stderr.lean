import Verif.Model.Tools
/-!
`git-lfs-transfer` with a standard error that may not take what is written to it.

In `Transfer.process` the message at the end is always printed.
-/
namespace Verif.Transfer

/-- git-lfs-transfer.rs:158 `writeln!(error, "{}", e).unwrap()` and git-lfs-transfer.rs:181 `eprintln!`, to a stream that
takes `errCap` more bytes. If it does not take all of them, the program panics, or is killed by `SIGPIPE`
(git-lfs-transfer.rs:187-192). -/
def reported (errCap : Cap) (x : Exit) : Bytes × Ended :=
  ((writeTo errCap x.stderr).1, if (writeTo errCap x.stderr).2 then .exit x.code else .aborted)

/-- git-lfs-transfer.rs:176-185 `repo` and 197-205 `main`: the process, with such a standard error. -/
def processErr (repo : Except GitErr (Except GitErr Shared)) (cfg : Cfg) (operation : Bytes) (r : Rdr) (errCap : Cap) :
    Prog (Bytes × Ended) :=
  (process repo cfg operation r).bind fun x => .ret (reported errCap x)

end Verif.Transfer
