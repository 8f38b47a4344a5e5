import Verif.Py.Str

/-!
# Specification: links in texts on PyPI
-/

namespace Verif.Spec

open Verif

/-- the schemes of links that are allowed in a text on PyPI: mail, chat and calls; files and versions; news and pages -/
def linkSchemes : List Str :=
  [c!"mailto", c!"imap", c!"irc", c!"sip", c!"sips"] ++
  [c!"file", c!"ftp", c!"sftp", c!"rsync", c!"svn", c!"svn+ssh", c!"telnet"] ++
  [c!"news", c!"nntp", c!"snews", c!"gopher", c!"wais", c!"prospero", c!"hdl"] ++
  [c!"http", c!"https", c!"shttp", c!"mms", c!"rtsp", c!"rtspu"]

end Verif.Spec
