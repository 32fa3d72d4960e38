m("Model/Router","host","(a.toList.takeWhile (· ≠ ':'))","(a.toList.takeWhile (· ≠ '/'))","C31","host entry never found",tightened="Router.host_of")
